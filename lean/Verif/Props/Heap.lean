import Verif.Lemmas.HeapWalk
import Verif.Lemmas.HeapShip
import Verif.Props.Shippable
/-! # C96: boxes are objects -/

namespace Verif.Props
open Verif Verif.Spec GoFloat
variable {F : Type} [GoFloat F]

/-- C96: `Shrink` of a box returns, and shrinks every object as often as it is met below the box; all others are left alone. -/
theorem C96_shrink (be : Backend F) (h : Heap F) (r : Ref) (t : TNode F) (S : List Ref) (ha : At h r t S) :
    ∃ h', hShrink be r h = .ok ((), h') ∧ h'.length = h.length ∧ ∀ x : Ref, h'[x]? = (h[x]?).map ((Cell.shrink be)^[S.count x]) := by
  obtain ⟨h', a, b, c⟩ := hShrink_times be ha
  exact ⟨h', a, b, c⟩

/-- C96: the same for `Grow`. -/
theorem C96_grow (be : Backend F) (h : Heap F) (r : Ref) (t : TNode F) (S : List Ref) (ha : At h r t S) :
    ∃ h', hGrow be r h = .ok ((), h') ∧ h'.length = h.length ∧ ∀ x : Ref, h'[x]? = (h[x]?).map ((Cell.grow be)^[S.count x]) := by
  obtain ⟨h', a, b, c⟩ := hGrow_times be ha
  exact ⟨h', a, b, c⟩

/-- C96: if no object is met twice, the box becomes what `Shrink` makes of it as a value, and every box that shares no object with
it stays what it is. -/
theorem C96_shrink_once (be : Backend F) (h : Heap F) (r : Ref) (t : TNode F) (S : List Ref) (ha : At h r t S) (hn : S.Nodup) :
    ∃ h', hShrink be r h = .ok ((), h') ∧ At h' r (t.shrink be) S ∧ SameBut S h h' ∧
      ∀ r2 t2 S2, At h r2 t2 S2 → (∀ x ∈ S2, x ∉ S) → At h' r2 t2 S2 := by
  obtain ⟨h', a, b, c, d⟩ := hShrink_at be ha hn
  exact ⟨h', a, b, ⟨by rw [c], fun x _ hx => d x hx⟩, fun r2 t2 S2 h2 hd => h2.same fun x hx => d x (hd x hx)⟩

/-- C96: the same for `Grow`. -/
theorem C96_grow_once (be : Backend F) (h : Heap F) (r : Ref) (t : TNode F) (S : List Ref) (ha : At h r t S) (hn : S.Nodup) :
    ∃ h', hGrow be r h = .ok ((), h') ∧ At h' r (t.grow be) S ∧ SameBut S h h' ∧
      ∀ r2 t2 S2, At h r2 t2 S2 → (∀ x ∈ S2, x ∉ S) → At h' r2 t2 S2 := by
  obtain ⟨h', a, b, c, d⟩ := hGrow_at be ha hn
  exact ⟨h', a, b, ⟨by rw [c], fun x _ hx => d x hx⟩, fun r2 t2 S2 h2 hd => h2.same fun x hx => d x (hd x hx)⟩

/-- C96 (finding): a character put twice into a list is shrunk twice by one `Shrink` of the list, while the list is shrunk
once. -/
theorem C96_twice (be : Backend F) (h : Heap F) (r : Ref) (c : CharD F) (hc : h[r]? = some (.char c)) :
    ∃ l h' h'' hd, hHListOf be [r, r] false h = .ok (l, h') ∧ h'[l]? = some (.list .h hd [r, r]) ∧ hShrink be l h' = .ok ((), h'') ∧
      h''[l]? = some (.list .h hd.shrink [r, r]) ∧ h''[r]? = some (.char c.shrink.shrink) := by
  have hr := (List.getElem?_eq_some_iff.1 hc).1
  have e : hHListOf be [r, r] false h = .ok (h.length, h ++ [.list .h (hpack LHead.zero [.char c, .char c] zero true) [r, r]]) := by
    have e1 : (h ++ [Cell.list .h LHead.zero [r, r]])[r]? = some (.char c) := by rw [List.getElem?_append_left hr, hc]
    simp only [hHListOf, HM.bind, HM.ret, hAlloc, Bool.false_eq_true, if_false, Res.ok_bind, hHPack, hGet, hShells, e1,
      List.getElem?_concat_length, hSet, Cell.shell]
    congr 2
    rw [List.set_append_right _ _ (Nat.le_refl _)]
    simp
  have at' : At (h ++ [.list .h (hpack LHead.zero [.char c, .char c] zero true) [r, r]]) h.length
      (.list .h (hpack LHead.zero [.char c, .char c] zero true) [.char c, .char c]) [h.length, r, r] := by
    have e1 : (h ++ [Cell.list .h (hpack LHead.zero [.char c, .char c] zero true) [r, r]])[r]? = some (.char c) := by
      rw [List.getElem?_append_left hr, hc]
    simp only [At, AtAll]
    exact ⟨[r, r], [r, r], by simp, rfl, [r], [r], rfl, ⟨e1, rfl⟩, [r], [], rfl, ⟨e1, rfl⟩, rfl⟩
  obtain ⟨h'', a, -, b⟩ := C96_shrink be _ _ _ _ at'
  refine ⟨h.length, _, h'', hpack LHead.zero [.char c, .char c] zero true, e, by simp, a, ?_, ?_⟩
  · rw [b]
    have : List.count h.length [h.length, r, r] = 1 := by
      have : r ≠ h.length := Nat.ne_of_lt hr
      rw [List.count_cons_self, List.count_cons_of_ne this, List.count_cons_of_ne this, List.count_nil]
    rw [this]
    simp [Cell.shrink]
  · rw [b, List.getElem?_append_left hr, hc]
    have : List.count r [h.length, r, r] = 2 := by
      have : h.length ≠ r := Nat.ne_of_gt hr
      rw [List.count_cons_of_ne this, List.count_cons_self, List.count_cons_self, List.count_nil]
    rw [this]
    rfl

/-- C96: `HListOf`, `HCentered`, `VListOf`, `VCentered` on boxes that share nothing make the box that the model with values
describes, of which no two nodes are one object, and change no object that was there before. -/
theorem C96_lists (be : Backend F) (h : Heap F) (rs : List Ref) (ts : List (TNode F)) (S : List Ref) (ha : AtAll h rs ts S) (hn : S.Nodup)
    (doKern : Bool) :
    (∃ r h' S', hHListOf be rs doKern h = .ok (r, h') ∧ At h' r (hlistOf be ts doKern) S' ∧ S'.Nodup ∧ SameBut [] h h') ∧
    (∃ r h' S', hHCentered be rs h = .ok (r, h') ∧ At h' r (hcentered be ts) S' ∧ S'.Nodup ∧ SameBut [] h h') ∧
    (∀ t, vlistOf ts = .ok t → ∃ r h' S', hVListOf rs h = .ok (r, h') ∧ At h' r t S' ∧ S'.Nodup ∧ SameBut [] h h') ∧
    (∀ t, vcentered ts = .ok t → ∃ r h' S', hVCentered rs h = .ok (r, h') ∧ At h' r t S' ∧ S'.Nodup ∧ SameBut [] h h') := by
  obtain ⟨l, rfl, rfl⟩ : ∃ l : List (Ref × TNode F), rs = l.map (·.1) ∧ ts = l.map (·.2) := atAll_zip ha
  have hl : Held h 0 (l ++ []) := ⟨Nat.zero_le _, S, by rw [List.append_nil]; exact ha, hn, fun _ _ => Nat.zero_le _⟩
  have fin : ∀ {r : Ref} {t : TNode F} {h' : Heap F}, Held h' 0 [(r, t)] → Fr h.length h h' → ∃ S', At h' r t S' ∧ S'.Nodup ∧ SameBut [] h h' := by
    intro r t h' k f
    obtain ⟨S1, _, a, _, b, _⟩ := k.head
    exact ⟨S1, a, b, f.1, fun x hx _ => f.2 x hx⟩
  refine ⟨?_, ?_, ?_, ?_⟩
  · obtain ⟨r, h', e, _, k⟩ := does_hlistOf be hl doKern
    obtain ⟨S', a⟩ := fin k (hHListOf_frame be _ _ e)
    exact ⟨r, h', S', e, a⟩
  · obtain ⟨r, h', e, _, k⟩ := does_hcentered be hl
    obtain ⟨S', a⟩ := fin k (hHCentered_frame be _ e)
    exact ⟨r, h', S', e, a⟩
  · intro t ht
    have := run_vlistOf hl
    unfold Run at this
    rw [ht] at this
    cases e : hVListOf (l.map (·.1)) h with
    | ok q =>
      rw [e] at this
      obtain ⟨S', a⟩ := fin this.2 (hVListOf_frame _ e)
      exact ⟨q.1, q.2, S', rfl, a⟩
    | panic _ => rw [e] at this; exact this.elim
    | fuel => rw [e] at this; exact this.elim
  · intro t ht
    have := run_vcentered hl
    unfold Run at this
    rw [ht] at this
    cases e : hVCentered (l.map (·.1)) h with
    | ok q =>
      rw [e] at this
      obtain ⟨S', a⟩ := fin this.2 (hVCentered_frame _ e)
      exact ⟨q.1, q.2, S', rfl, a⟩
    | panic _ => rw [e] at this; exact this.elim
    | fuel => rw [e] at this; exact this.elim

/-- C96: the list holds the very objects it was given, in their order — for `HListOf` with kerning, new `Kern` objects among
them —, whether they share something or not; so what is later done to one of them is seen through the list. -/
theorem C96_holds (be : Backend F) (h h' : Heap F) (rs : List Ref) (hrs : ∀ x ∈ rs, x < h.length) (r : Ref) :
    (∀ doKern, hHListOf be rs doKern h = .ok (r, h') → ∃ hd cs, h'[r]? = some (.list .h hd cs) ∧ cs.filter (fun x => decide (x < h.length)) = rs ∧
      ∀ x ∈ cs, x ∈ rs ∨ ∃ w, h'[x]? = some (.kern ⟨0, w⟩)) ∧
    (hHListOf be rs false h = .ok (r, h') → ∃ hd, h'[r]? = some (.list .h hd rs)) ∧
    (hVListOf rs h = .ok (r, h') → ∃ hd, h'[r]? = some (.list .v hd rs)) :=
  ⟨fun dk e => hHListOf_holds be rs hrs dk e, fun e => hHListOf_holds_plain be rs e, fun e => hVListOf_holds rs e⟩

/-- C96: `mtex.Parse` returns a box made of new objects, each once: the box the model with values describes; what existed before is
unchanged.  It panics as that model does. -/
theorem C96_parse (U : Nat → Bool) (be : Backend F) (num : GoString → Option F) (x : GoString) (size dpi : F) (h : Heap F) :
    match mtexParse U be num x size dpi with
    | .ok q => ∃ r h' S, hParse U be num x size dpi h = .ok (r, h') ∧ At h' r (.list .h q.1 q.2) S ∧ S.Nodup ∧
        (∀ a ∈ S, h.length ≤ a) ∧ SameBut [] h h'
    | .panic p => hParse U be num x size dpi h = .panic p
    | .fuel => hParse U be num x size dpi h = .fuel := by
  have := makes_parse U be num x size dpi h
  unfold Run at this
  cases e : mtexParse U be num x size dpi with
  | ok q =>
    rw [e] at this
    cases e2 : hParse U be num x size dpi h with
    | ok r =>
      rw [e2] at this
      obtain ⟨f, k⟩ := this
      obtain ⟨S1, _, a, _, b, _, _, c, _⟩ := k.head
      exact ⟨r.1, r.2, S1, rfl, a, b, c, f.1, fun x hx _ => f.2 x hx⟩
    | panic p => rw [e2] at this; exact this.elim
    | fuel => rw [e2] at this; exact this.elim
  | panic p =>
    rw [e] at this
    cases e2 : hParse U be num x size dpi h with
    | ok r => rw [e2] at this; exact this.elim
    | panic p => rw [e2] at this; exact congrArg _ this
    | fuel => rw [e2] at this; exact this.elim
  | fuel =>
    rw [e] at this
    cases e2 : hParse U be num x size dpi h with
    | ok r => rw [e2] at this; exact this.elim
    | panic p => rw [e2] at this; exact this.elim
    | fuel => rfl

/-- C96: `Ship` of a box of which no part is met twice draws what it draws of the box as a value, leaves the box as it does there, and
changes no object outside of it. -/
theorem C96_ship (h : Heap F) (r : Ref) (k : LKind) (hd : LHead F) (cs : List (TNode F)) (S : List Ref) (ha : At h r (.list k hd cs) S) (hn : S.Nodup)
    (ox oy : F) :
    match shipCall ox oy hd cs with
    | .ok (st, cs') => ∃ h', hShip ox oy r h = .ok (st, h') ∧ At h' r (.list k hd cs') S ∧ SameBut S h h'
    | .panic p => hShip ox oy r h = .panic p
    | .fuel => hShip ox oy r h = .fuel := by
  have := ship_at ox oy ha hn
  cases e : shipCall ox oy hd cs with
  | ok q =>
    rw [e] at this
    cases e2 : hShip ox oy r h with
    | ok p =>
      rw [e2] at this
      obtain ⟨a, b, _, c⟩ := this
      exact ⟨p.2, by rw [← b], c, by rw [a.1], fun x _ hx => a.2 x hx⟩
    | panic p => rw [e2] at this; exact this.elim
    | fuel => rw [e2] at this; exact this.elim
  | panic p =>
    rw [e] at this
    cases e2 : hShip ox oy r h with
    | ok r => rw [e2] at this; exact this.elim
    | panic p => rw [e2] at this; exact congrArg _ this
    | fuel => rw [e2] at this; exact this.elim
  | fuel =>
    rw [e] at this
    cases e2 : hShip ox oy r h with
    | ok r => rw [e2] at this; exact this.elim
    | panic p => rw [e2] at this; exact this.elim
    | fuel => rfl

theorem set_same {l : List (Ref × TNode F)} {i : Nat} {q : Ref × TNode F} (e : l[i]? = some q) : (l.map (·.1)).set i q.1 = l.map (·.1) := by
  obtain ⟨hi, e'⟩ := List.getElem?_eq_some_iff.1 e
  apply List.ext_getElem?
  intro j
  by_cases hj : i = j
  · subst hj
    rw [List.getElem?_set_self (by simpa using hi), List.getElem?_map, e]
    rfl
  · rw [List.getElem?_set_ne hj]

/-- C96: any history of `Parse`, `Shrink`, `Grow` and `Ship` calls leaves every box as if each were a value of its own, and draws the
same: no call on one box changes another. -/
theorem C96_history (U : Nat → Bool) (be : Backend F) (num : GoString → Option F) (calls : List (BoxCall F)) (h : Heap F) :
    match asValues U be num calls [] [] with
    | .ok (ts, out) => ∃ rs h' S, asObjects U be num calls [] [] h = .ok ((rs, out), h') ∧ AtAll h' rs ts S ∧ S.Nodup ∧ SameBut [] h h'
    | .panic p => asObjects U be num calls [] [] h = .panic p
    | .fuel => asObjects U be num calls [] [] h = .fuel := by
  have key : ∀ (l : List (Ref × TNode F)) (out : List (Draw F)) (h1 : Heap F), Held h1 h.length l → (∀ q ∈ l, ∃ k hd cs, q.2 = .list k hd cs) →
      Run (asObjects U be num calls (l.map (·.1)) out) h1 h.length
      (asValues U be num calls (l.map (·.2)) out) (fun h' a b => HeldMany h' h.length a.1 b.1 [] ∧ a.2 = b.2) := by
    induction calls with
    | nil => intro l out h1 hl _; exact run_ret ⟨⟨l, rfl, rfl, by rw [List.append_nil]; exact hl⟩, rfl⟩
    | cons c calls ih =>
      intro l out h1 hl ht
      have upd : ∀ {i : Nat} {q : Ref × TNode F} (e : l[i]? = some q) (t' : TNode F) (out' : List (Draw F)) (h2 : Heap F),
          Held h2 h.length ((q.1, t') :: l.eraseIdx i) → (∃ k hd cs, t' = .list k hd cs) →
          Run (asObjects U be num calls (l.map (·.1)) out') h2 h.length
            (asValues U be num calls ((l.map (·.2)).set i t') out') (fun h' a b => HeldMany h' h.length a.1 b.1 [] ∧ a.2 = b.2) := by
        intro i q e t' out' h2 k hk
        obtain ⟨hi, e'⟩ := List.getElem?_eq_some_iff.1 e
        have := ih (l.set i (q.1, t')) out' h2 (k.perm (List.set_perm_cons_eraseIdx hi _).symm) (by
          intro q' hq'
          rcases List.mem_or_eq_of_mem_set hq' with hq' | rfl
          · exact ht q' hq'
          · exact hk)
        rw [List.map_set, List.map_set, set_same e] at this
        exact this
      have hp : ∀ {i : Nat} {q : Ref × TNode F}, l[i]? = some q → Held h1 h.length (q :: l.eraseIdx i) := by
        intro i q e
        obtain ⟨hi, e'⟩ := List.getElem?_eq_some_iff.1 e
        exact hl.perm (by rw [← e']; exact (List.getElem_cons_eraseIdx_perm hi).symm)
      cases c with
      | parse x size dpi =>
        have hm := (makes_parse U be num x size dpi).call hl
        have : asValues U be num (.parse x size dpi :: calls) (l.map (·.2)) out =
            ((mtexParse U be num x size dpi >>= fun q => .ok (.list .h q.1 q.2)) >>= fun t => asValues U be num calls (l.map (·.2) ++ [t]) out) := by
          rw [makes_handleNode.bind_assoc']; rfl
        rw [this]
        have hm' : Run (hParse U be num x size dpi) h1 h.length (mtexParse U be num x size dpi >>= fun q => .ok (.list .h q.1 q.2))
            (fun h' r t => Held h' h.length ((r, t) :: l) ∧ ∃ k hd cs, t = TNode.list k hd cs) := by
          cases e : mtexParse U be num x size dpi with
          | ok q =>
            rw [e] at hm
            unfold Run at hm ⊢
            cases e2 : hParse U be num x size dpi h1 with
            | ok p => rw [e2] at hm; exact ⟨hm.1, hm.2, _, _, _, rfl⟩
            | panic p => rw [e2] at hm; exact hm
            | fuel => rw [e2] at hm; exact hm
          | panic p =>
            rw [e] at hm
            unfold Run at hm ⊢
            cases e2 : hParse U be num x size dpi h1 <;> rw [e2] at hm <;> exact hm
          | fuel =>
            rw [e] at hm
            unfold Run at hm ⊢
            cases e2 : hParse U be num x size dpi h1 <;> rw [e2] at hm <;> exact hm
        refine hm'.bind fun r h2 t _ k => ?_
        have := ih (l ++ [(r, t)]) out h2 (k.1.perm (List.perm_append_singleton _ _).symm) (by
          intro q hq
          rcases List.mem_append.1 hq with hq | hq
          · exact ht q hq
          · rw [List.mem_singleton] at hq; rw [hq]; exact k.2)
        simpa using this
      | shrink i =>
        simp only [asObjects, asValues, List.getElem?_map]
        cases e : l[i]? with
        | none => exact run_panic
        | some q =>
          obtain ⟨kk, hd, cs, e3⟩ := ht q (List.mem_of_getElem? e)
          exact (does_shrink be (hp e)).bind fun _ h2 _ k => upd e _ _ _ k ⟨kk, hd.shrink, shrinkAll be cs, by simp [e3, TNode.shrink]⟩
      | grow i =>
        simp only [asObjects, asValues, List.getElem?_map]
        cases e : l[i]? with
        | none => exact run_panic
        | some q =>
          obtain ⟨kk, hd, cs, e3⟩ := ht q (List.mem_of_getElem? e)
          exact (does_grow be (hp e)).bind fun _ h2 _ k => upd e _ _ _ k ⟨kk, hd.grow, growAll be cs, by simp [e3, TNode.grow]⟩
      | ship i ox oy =>
        simp only [asObjects, asValues, List.getElem?_map]
        cases e : l[i]? with
        | none => exact run_panic
        | some q =>
          obtain ⟨kk, hd, cs, e3⟩ := ht q (List.mem_of_getElem? e)
          obtain ⟨q1, q2⟩ := q
          cases e3
          refine (run_ship ox oy (hp e)).bind fun st h2 y _ k => ?_
          obtain ⟨rfl, k⟩ := k
          exact upd e _ _ _ k ⟨kk, hd, y.2, rfl⟩
  have := key [] [] h (held_nil h) (by simp)
  unfold Run at this
  simp only [List.map_nil] at this
  cases e : asValues U be num calls [] [] with
  | ok ts =>
    rw [e] at this
    cases e2 : asObjects U be num calls [] [] h with
    | ok q =>
      rw [e2] at this
      obtain ⟨f, ⟨l, e3, e4, -, S, a, b, -⟩, e5⟩ := this
      rw [List.append_nil] at a
      obtain ⟨⟨q1, q2⟩, q3⟩ := q
      obtain ⟨t1, t2⟩ := ts
      cases e5
      refine ⟨q1, q3, S, rfl, ?_, b, f.1, fun x hx _ => f.2 x hx⟩
      dsimp only at e3 e4
      rw [e3, e4]
      exact a
    | panic p => rw [e2] at this; exact this.elim
    | fuel => rw [e2] at this; exact this.elim
  | panic p =>
    rw [e] at this
    cases e2 : asObjects U be num calls [] [] h with
    | ok r => rw [e2] at this; exact this.elim
    | panic p => rw [e2] at this; exact congrArg _ this
    | fuel => rw [e2] at this; exact this.elim
  | fuel =>
    rw [e] at this
    cases e2 : asObjects U be num calls [] [] h with
    | ok r => rw [e2] at this; exact this.elim
    | panic p => rw [e2] at this; exact this.elim
    | fuel => rfl

/-! ## Concrete cases -/

/-- A rule and a list that holds it and a box, inside another list: four objects. -/
def exHeap : Heap XR :=
  [.rule (newBox (.fin 1) (.fin 2) (.fin 3)), .box (newBox (.fin 4) (.fin 5) (.fin 6)), .list .h LHead.zero [0, 1], .kern ⟨0, .fin 7⟩, .list .v LHead.zero [2, 3]]

/-- A box that meets the hypotheses of `C96_shrink_once`. -/
example : At exHeap 4 (.list .v LHead.zero [.list .h LHead.zero [.rule (newBox (.fin 1) (.fin 2) (.fin 3)), .box (newBox (.fin 4) (.fin 5) (.fin 6))],
    .kern ⟨0, .fin 7⟩]) [4, 2, 0, 1, 3] ∧ [4, 2, 0, 1, 3].Nodup := by
  refine ⟨?_, by decide⟩
  simp only [At, AtAll]
  exact ⟨[2, 3], [2, 0, 1, 3], rfl, rfl, [2, 0, 1], [3], rfl, ⟨[0, 1], [0, 1], rfl, rfl, [0], [1], rfl, ⟨rfl, rfl⟩, [1], [], rfl, ⟨rfl, rfl⟩, rfl⟩,
    [3], [], rfl, ⟨rfl, rfl⟩, rfl⟩

/-- Boxes that meet the hypotheses of `C96_lists` and `C96_holds`. -/
example : AtAll exHeap [0, 3] [.rule (newBox (.fin 1) (.fin 2) (.fin 3)), .kern ⟨0, .fin 7⟩] [0, 3] ∧ [0, 3].Nodup ∧ ∀ x ∈ [0, 3], x < exHeap.length := by
  refine ⟨?_, by decide, by decide⟩
  simp only [At, AtAll]
  exact ⟨[0], [3], rfl, ⟨rfl, rfl⟩, [3], [], rfl, ⟨rfl, rfl⟩, rfl⟩

/-- A fraction is made of eighteen objects, the last of which is the box returned. -/
example : (match hParse exU exBe exNum bs!"$\\frac{1}{x}$" (.fin 10) (.fin 72) [] with | .ok q => decide (q.1 = 17 ∧ q.2.length = 18) | _ => false) = true := by
  decide +kernel

/-- A history: two boxes, one of which is shrunk and drawn before and after the other is made and grown; five characters and two bars are
drawn. -/
example : (match asObjects exU exBe exNum [.parse bs!"$\\frac{1}{x}$" (.fin 10) (.fin 72), .shrink 0, .ship 0 (.fin 0) (.fin 0),
    .parse bs!"$x$" (.fin 10) (.fin 72), .grow 1, .shrink 0, .ship 1 (.fin 5) (.fin 5), .ship 0 (.fin 1) (.fin 1)] [] [] [] with
    | .ok q => decide (q.1.1 = [17, 20] ∧ q.1.2.length = 7 ∧ q.2.length = 21) | _ => false) = true := by
  decide +kernel

end Verif.Props
