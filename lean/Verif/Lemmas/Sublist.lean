import Verif.Lemmas.Marks
import Verif.Model.Krfl
/-! # Leaf texts are a subsequence of the source; script operands; argument shapes -/

namespace Verif
open Spec

theorem scan_rest {U s t s'} (h : scan U s = .ok (t, s')) :
    ∃ w body, s.rest = w ++ body ++ s'.rest ∧ KindBody U t.kind t.text body := by
  obtain ⟨w, body, h1⟩ := scan_spec h
  exact ⟨w, body, h1.rest, h1.shape⟩

theorem P.sublist {U : Nat → Bool} {x : GoString} {c m s l cl s'} (h : P U c m s l cl s') :
    match (generalizing := false) c with
    | .one t => ∀ body, TokAt U x t s body →
        ∃ mid, s.rest = mid ++ s'.rest ∧ List.Sublist (leafTextL l) (bytesOf (body ++ mid))
    | .loop _ => Src x s →
        ∃ mid, s.rest = mid ++ s'.rest ∧ List.Sublist (leafTextL l) (bytesOf mid)
    | .args _ => Src x s →
        ∃ mid, s.rest = mid ++ s'.rest ∧ List.Sublist (leafTextL l) (bytesOf mid) := by
  have step : ∀ {s t s'} {U : Nat → Bool}, Src x s → Verif.scan U s = .ok (t, s') →
      ∃ w body, TokAt U x t s' body ∧ s.rest = (w ++ body) ++ s'.rest := by
    intro s t s' U h hs
    obtain ⟨w, body, h1⟩ := scan_spec hs
    obtain ⟨h2, h3⟩ := h.advance (s' := ⟨body ++ s'.rest, t.pos⟩) (mid := w) (by rw [h1.rest]; simp) h1.pos
    obtain ⟨h4, h5⟩ := h2.advance (s' := s') (mid := body) rfl h1.off
    refine ⟨w, body, ⟨h4, ?_, h5, h1.off, h1.shape, h2⟩, h1.rest⟩
    intro c hc; exact h.wf c (by rw [h1.rest]; simp [hc])
  induction h with
  | comment hk | spaceMath hk =>
    intro body ht
    exact ⟨[], by simp, by rw [leafTextL_single]; exact List.nil_sublist _⟩
  | «macro» hk hl ha ih =>
    intro body ht
    obtain ⟨mid, h1, h2⟩ := ih ht.src
    refine ⟨mid, h1, ?_⟩
    have hs := ht.shape
    rw [hk] at hs
    obtain ⟨c, w, nm, rfl, h3, h4, h5, _⟩ := hs
    have hc := (ht.wf c (by simp)).2 (by omega)
    rw [leafTextL_single]
    simp only [leafText, leaves, List.flatMap_cons]
    simp only [bytesOf_append, bytesOf_cons, hc, h3, h5, List.cons_append, List.nil_append]
    refine List.Sublist.cons_cons _ ?_
    refine List.Sublist.append ?_ h2
    exact List.sublist_append_right _ _
  | word hk | number hk | symbol hk | spaceText hk =>
    intro body ht
    refine ⟨[], by simp, ?_⟩
    rw [leafTextL_single]
    simp [leafText, leaves, ht.leaf (by simp [hk])]
  | delim hk =>
    intro body ht
    refine ⟨[], by simp, ?_⟩
    rw [leafTextL_single]
    simp [leafText, leaves, ht.leaf (by rcases hk with hk | hk | hk | hk <;> simp [hk])]
  | math hk htx _ ih | group hk _ ih =>
    intro body ht
    obtain ⟨mid, h1, h2⟩ := ih ht.src
    refine ⟨mid, h1, ?_⟩
    rw [bytesOf_append, leafTextL_single]
    exact h2.trans (List.sublist_append_right _ _)
  | supGroup hk htx _ hsc htx1 _ ih | subGroup hk htx _ hsc htx1 _ ih =>
    intro body ht
    obtain ⟨w, b1, ht1, hr⟩ := step ht.src hsc
    obtain ⟨mid, h1, h2⟩ := ih ht1.src
    refine ⟨(w ++ b1) ++ mid, by rw [hr, h1]; simp, ?_⟩
    rw [bytesOf_append, bytesOf_append, leafTextL_single]
    exact (h2.trans (List.sublist_append_right _ _)).trans (List.sublist_append_right _ _)
  | supOne hk htx _ hsc _ ih | subOne hk htx _ hsc _ ih =>
    intro body ht
    obtain ⟨w, b1, ht1, hr⟩ := step ht.src hsc
    obtain ⟨mid, h1, h2⟩ := ih b1 ht1
    refine ⟨w ++ (b1 ++ mid), by rw [hr, h1]; simp, ?_⟩
    rw [leafTextL_single] at h2 ⊢
    rw [bytesOf_append, bytesOf_append]
    exact (h2.trans (List.sublist_append_right _ _)).trans (List.sublist_append_right _ _)
  | loopEof hsc hk | loopStop hsc hk _ =>
    intro hs
    obtain ⟨w, b1, ht1, hr⟩ := step hs hsc
    exact ⟨_, hr, List.nil_sublist _⟩
  | loopCons hsc hk hst h1 h2 ih1 ih2 =>
    intro hs
    obtain ⟨w, b1, ht1, hr⟩ := step hs hsc
    obtain ⟨mid, h3, h4⟩ := ih1 b1 ht1
    obtain ⟨h5, _⟩ := h1.order ⟨b1, ht1⟩
    obtain ⟨mid2, h6, h7⟩ := ih2 h5
    refine ⟨w ++ ((b1 ++ mid) ++ mid2), by rw [hr, h3, h6]; simp, ?_⟩
    rw [leafTextL_if, bytesOf_append, bytesOf_append]
    rw [leafTextL_single] at h4
    exact (h4.append h7).trans (List.sublist_append_right _ _)
  | argsNil => intro _; exact ⟨[], by simp, List.nil_sublist _⟩
  | argsArg _ hsc htx hp _ ih1 ih2 | argsOpt _ _ hsc htx hp _ ih1 ih2 =>
    intro hs
    obtain ⟨w, b1, ht1, hr⟩ := step hs hsc
    have h0 := ht1.expected htx (by decide)
    obtain ⟨mid, h3, h4⟩ := ih1 ht1.src
    obtain ⟨h5, _⟩ := hp.order ht1.src (.inr (by omega))
    obtain ⟨mid2, h6, h7⟩ := ih2 h5
    refine ⟨(w ++ b1) ++ (mid ++ mid2), by rw [hr, h3, h6]; simp, ?_⟩
    rw [leafTextL_cons, bytesOf_append _ (mid ++ mid2), bytesOf_append mid]
    exact (List.Sublist.append h4 h7).trans (List.sublist_append_right _ _)
  | argsNoOpt _ _ _ ih => exact ih
  | argsOther _ _ _ ih => exact ih

/-! ## Script operands anywhere in a well-shaped tree -/

/-- The condition on a script's operand. -/
def ScriptOK (U : Nat → Bool) (x : GoString) (math : Bool) (k : Node) : Prop :=
  ∀ p n, (k = .sub p n ∨ k = .sup p n) →
    n = .nil ∧ BlankOrComment x math (p + 1) ∨ ∃ b, Operand U x b n

theorem BlankOrComment.weaken {x p} {b : Bool} (h : BlankOrComment x b p) : BlankOrComment x true p := by
  rcases h with h | ⟨_, h⟩
  · exact .inl h
  · exact .inr ⟨rfl, h⟩

theorem Operand.shape_or {U x m n} (h : Operand U x m n) : (∃ l, n = .list l ∧ ShapeL U x m l) ∨ Shape U x m n := by
  match n, h with
  | .list l, h => exact .inl ⟨l, rfl, by simpa only [Operand] using h⟩
  | .nil, h => exact .inr h
  | .macro none _, h => exact .inr h
  | .macro (some _) _, h => exact .inr h
  | .arg _ _ _, h => exact .inr h
  | .optArg _ _ _, h => exact .inr h
  | .ident _ _, h => exact .inr h
  | .math _ _ _ _, h => exact .inr h
  | .word _ _, h => exact .inr h
  | .lit _ _, h => exact .inr h
  | .sym _ _, h => exact .inr h
  | .sub _ _, h => exact .inr h
  | .sup _ _, h => exact .inr h

/-- A property of scripts, for all nodes of a tree outside math (`textNodes`). -/
theorem scriptOK_leaf {U x b k} (h : ∀ p n, k ≠ .sub p n ∧ k ≠ .sup p n) : ScriptOK U x b k := by
  intro p n hk
  exact (hk.elim (h p n).1 (h p n).2).elim

section Forall
variable {U : Nat → Bool} {x : GoString} {Q : Node → Prop}
  (hQ : ∀ m k, Operand U x m k → Q k) (hA : ∀ m a l b, ShapeL U x m l → Q (.arg a l b))
  (hO : ∀ m a l b, ShapeL U x m l → Q (.optArg a l b)) (hN : Q .nil)
include hQ hA hO hN

mutual
/-- A fact about every kind of node of a parse result holds at every depth. -/
theorem shape_forall : ∀ (n : Node) (m : Bool), Operand U x m n → ∀ k ∈ allNodes n, Q k
  | .nil, m, h, k, hk => by simp [Operand] at h
  | .ident _ _, m, h, k, hk => by simp [Operand] at h
  | .arg _ _ _, m, h, k, hk => by simp [Operand] at h
  | .optArg _ _ _, m, h, k, hk => by simp [Operand] at h
  | .macro none _, m, h, k, hk => by simp [Operand] at h
  | .word _ _, m, h, k, hk => by
    simp only [allNodes, List.mem_singleton] at hk; subst hk; exact hQ m _ h
  | .lit _ _, m, h, k, hk => by
    simp only [allNodes, List.mem_singleton] at hk; subst hk; exact hQ m _ h
  | .sym _ _, m, h, k, hk => by
    simp only [allNodes, List.mem_singleton] at hk; subst hk; exact hQ m _ h
  | .list l, m, h, k, hk => by
    simp only [allNodes, List.mem_cons] at hk
    rcases hk with rfl | hk
    · exact hQ m _ h
    · simp only [Operand] at h
      exact shape_forallL l m h k hk
  | .macro (some _) l, m, h, k, hk => by
    simp only [allNodes, List.mem_cons] at hk
    rcases hk with rfl | hk
    · exact hQ m _ h
    · simp only [Operand] at h
      exact shape_forallA l m h k hk
  | .math _ _ l _, m, h, k, hk => by
    simp only [allNodes, List.mem_cons] at hk
    rcases hk with rfl | hk
    · exact hQ m _ h
    · simp only [Operand] at h
      exact shape_forallL l true h.2 k hk
  | .sub p n, m, h, k, hk => by
    simp only [allNodes, List.mem_cons] at hk
    rcases hk with rfl | hk
    · exact hQ m _ h
    · simp only [Operand] at h
      rcases h with ⟨rfl, _⟩ | h
      · simp only [allNodes, List.mem_singleton] at hk; subst hk; exact hN
      · exact shape_forall n m h k hk
  | .sup p n, m, h, k, hk => by
    simp only [allNodes, List.mem_cons] at hk
    rcases hk with rfl | hk
    · exact hQ m _ h
    · simp only [Operand] at h
      rcases h with ⟨rfl, _⟩ | h
      · simp only [allNodes, List.mem_singleton] at hk; subst hk; exact hN
      · exact shape_forall n m h k hk
theorem shape_forallL : ∀ (l : List Node) (m : Bool), ShapeL U x m l → ∀ k ∈ allNodesL l, Q k
  | [], m, h, k, hk => by simp [allNodesL] at hk
  | n :: l, m, h, k, hk => by
    simp only [ShapeL] at h
    simp only [allNodesL, List.mem_append] at hk
    rcases hk with hk | hk
    · exact shape_forall n m (shape_operand h.1) k hk
    · exact shape_forallL l m h.2 k hk
theorem shape_forallA : ∀ (l : List Node) (m : Bool), ShapeArgs U x m l → ∀ k ∈ allNodesL l, Q k
  | [], m, h, k, hk => by simp [allNodesL] at hk
  | .arg _ l _ :: as, m, h, k, hk => by
    simp only [ShapeArgs] at h
    simp only [allNodesL, allNodes, List.mem_append, List.mem_cons] at hk
    rcases hk with (rfl | hk) | hk
    · exact hA _ _ _ _ h.1
    · exact shape_forallL l m h.1 k hk
    · exact shape_forallA as m h.2 k hk
  | .optArg _ l _ :: as, m, h, k, hk => by
    simp only [ShapeArgs] at h
    simp only [allNodesL, allNodes, List.mem_append, List.mem_cons] at hk
    rcases hk with (rfl | hk) | hk
    · exact hO _ _ _ _ h.1
    · exact shape_forallL l m h.1 k hk
    · exact shape_forallA as m h.2 k hk
  | .nil :: _, m, h, k, hk => by simp [ShapeArgs] at h
  | .list _ :: _, m, h, k, hk => by simp [ShapeArgs] at h
  | .macro _ _ :: _, m, h, k, hk => by simp [ShapeArgs] at h
  | .ident _ _ :: _, m, h, k, hk => by simp [ShapeArgs] at h
  | .math _ _ _ _ :: _, m, h, k, hk => by simp [ShapeArgs] at h
  | .word _ _ :: _, m, h, k, hk => by simp [ShapeArgs] at h
  | .lit _ _ :: _, m, h, k, hk => by simp [ShapeArgs] at h
  | .sym _ _ :: _, m, h, k, hk => by simp [ShapeArgs] at h
  | .sub _ _ :: _, m, h, k, hk => by simp [ShapeArgs] at h
  | .sup _ _ :: _, m, h, k, hk => by simp [ShapeArgs] at h
end
end Forall

theorem script_allL {U x} (l : List Node) (m : Bool) (h : ShapeL U x m l) :
    ∀ k ∈ allNodesL l, ScriptOK U x true k := by
  refine shape_forallL (U := U) (x := x) ?_ (fun _ _ _ _ _ => scriptOK_leaf (by simp))
    (fun _ _ _ _ _ => scriptOK_leaf (by simp)) (scriptOK_leaf (by simp)) l m h
  rintro m k hk p n (rfl | rfl) <;> simp only [Operand] at hk <;>
    exact hk.imp (fun h => ⟨h.1, BlankOrComment.weaken h.2⟩) fun h => ⟨m, h⟩

theorem Spec.ShapeL.not_nil {U x m} : ∀ {l : List Node}, ShapeL U x m l → Node.nil ∉ l
  | [], _ => by simp
  | n :: l, h => by
    simp only [ShapeL] at h
    simp only [List.mem_cons, not_or]
    refine ⟨?_, ShapeL.not_nil h.2⟩
    rintro rfl
    simp [Shape] at h

theorem Spec.ShapeArgs.not_nil {U x m} : ∀ {l : List Node}, ShapeArgs U x m l →
    ∀ n ∈ l, ∃ a k b, n = .arg a k b ∨ n = .optArg a k b
  | [], _ => by simp
  | .arg a l b :: as, h => by
    simp only [ShapeArgs] at h
    simp only [List.forall_mem_cons]
    exact ⟨⟨a, l, b, .inl rfl⟩, ShapeArgs.not_nil h.2⟩
  | .optArg a l b :: as, h => by
    simp only [ShapeArgs] at h
    simp only [List.forall_mem_cons]
    exact ⟨⟨a, l, b, .inr rfl⟩, ShapeArgs.not_nil h.2⟩
  | .nil :: _, h => by simp [ShapeArgs] at h
  | .list _ :: _, h => by simp [ShapeArgs] at h
  | .macro _ _ :: _, h => by simp [ShapeArgs] at h
  | .ident _ _ :: _, h => by simp [ShapeArgs] at h
  | .math _ _ _ _ :: _, h => by simp [ShapeArgs] at h
  | .word _ _ :: _, h => by simp [ShapeArgs] at h
  | .lit _ _ :: _, h => by simp [ShapeArgs] at h
  | .sym _ _ :: _, h => by simp [ShapeArgs] at h
  | .sub _ _ :: _, h => by simp [ShapeArgs] at h
  | .sup _ _ :: _, h => by simp [ShapeArgs] at h

theorem nil_not_elem {U x} (l : List Node) (m : Bool) (h : ShapeL U x m l) :
    ∀ k ∈ allNodesL l, Node.nil ∉ elements k := by
  refine shape_forallL (U := U) (x := x) ?_ (fun _ _ _ _ h => h.not_nil)
    (fun _ _ _ _ h => h.not_nil) (by simp [elements]) l m h
  intro m k hk
  match k, hk with
  | .nil, hk => simp [Operand] at hk
  | .list l, hk => simp only [Operand] at hk; exact hk.not_nil
  | .macro (some _) l, hk =>
    simp only [Operand] at hk
    intro hn
    obtain ⟨a, k, b, h | h⟩ := hk.not_nil _ hn <;> simp at h
  | .macro none l, hk => simp [Operand] at hk
  | .arg _ _ _, hk => simp [Operand] at hk
  | .optArg _ _ _, hk => simp [Operand] at hk
  | .ident _ _, hk => simp [elements]
  | .math _ _ l _, hk => simp only [Operand] at hk; exact hk.2.not_nil
  | .word _ _, hk => simp [elements]
  | .lit _ _, hk => simp [elements]
  | .sym _ _, hk => simp [elements]
  | .sub _ _, hk => simp [elements]
  | .sup _ _, hk => simp [elements]

theorem parse_shape {U x root} (h : parseExpr U x = .ok root) :
    ∃ l, root = .list l ∧ ShapeL U x false l := by
  obtain ⟨l, s', rfl, hp, _⟩ := parseExpr_sound h
  exact ⟨l, rfl, hp.shape (x := x) (Src.init x) (.inl rfl)⟩

mutual
theorem script_text {U x} : ∀ (n : Node), Operand U x false n → ∀ k ∈ textNodes n, ScriptOK U x false k
  | .nil, h, k, hk => by simp [Operand] at h
  | .ident _ _, h, k, hk => by simp [Operand] at h
  | .arg _ _ _, h, k, hk => by simp [Operand] at h
  | .optArg _ _ _, h, k, hk => by simp [Operand] at h
  | .macro none _, h, k, hk => by simp [Operand] at h
  | .word _ _, h, k, hk => by
    simp only [textNodes, List.mem_singleton] at hk; subst hk; exact scriptOK_leaf (by simp)
  | .lit _ _, h, k, hk => by
    simp only [textNodes, List.mem_singleton] at hk; subst hk; exact scriptOK_leaf (by simp)
  | .sym _ _, h, k, hk => by
    simp only [textNodes, List.mem_singleton] at hk; subst hk; exact scriptOK_leaf (by simp)
  | .math _ _ _ _, h, k, hk => by
    simp only [textNodes, List.mem_singleton] at hk; subst hk; exact scriptOK_leaf (by simp)
  | .list l, h, k, hk => by
    simp only [textNodes, List.mem_cons] at hk
    simp only [Operand] at h
    rcases hk with rfl | hk
    · exact scriptOK_leaf (by simp)
    · exact script_textL l h k hk
  | .macro (some _) l, h, k, hk => by
    simp only [textNodes, List.mem_cons] at hk
    simp only [Operand] at h
    rcases hk with rfl | hk
    · exact scriptOK_leaf (by simp)
    · exact script_textA l h k hk
  | .sub p n, h, k, hk => by
    simp only [textNodes, List.mem_cons] at hk
    simp only [Operand] at h
    rcases hk with rfl | hk
    · rintro p' n' (he | he)
      · obtain ⟨rfl, rfl⟩ := Node.sub.inj he
        exact h.imp id fun h => ⟨_, h⟩
      · simp at he
    · rcases h with ⟨rfl, _⟩ | h
      · simp only [textNodes, List.mem_singleton] at hk; subst hk; exact scriptOK_leaf (by simp)
      · exact script_text n h k hk
  | .sup p n, h, k, hk => by
    simp only [textNodes, List.mem_cons] at hk
    simp only [Operand] at h
    rcases hk with rfl | hk
    · rintro p' n' (he | he)
      · simp at he
      · obtain ⟨rfl, rfl⟩ := Node.sup.inj he
        exact h.imp id fun h => ⟨_, h⟩
    · rcases h with ⟨rfl, _⟩ | h
      · simp only [textNodes, List.mem_singleton] at hk; subst hk; exact scriptOK_leaf (by simp)
      · exact script_text n h k hk
theorem script_textL {U x} : ∀ (l : List Node), ShapeL U x false l → ∀ k ∈ textNodesL l, ScriptOK U x false k
  | [], h, k, hk => by simp [textNodesL] at hk
  | n :: l, h, k, hk => by
    simp only [ShapeL] at h
    simp only [textNodesL, List.mem_append] at hk
    rcases hk with hk | hk
    · exact script_text n (shape_operand h.1) k hk
    · exact script_textL l h.2 k hk
theorem script_textA {U x} : ∀ (l : List Node), ShapeArgs U x false l → ∀ k ∈ textNodesL l, ScriptOK U x false k
  | [], h, k, hk => by simp [textNodesL] at hk
  | .arg _ l _ :: as, h, k, hk => by
    simp only [ShapeArgs] at h
    simp only [textNodesL, textNodes, List.mem_append, List.mem_cons] at hk
    rcases hk with (rfl | hk) | hk
    · exact scriptOK_leaf (by simp)
    · exact script_textL l h.1 k hk
    · exact script_textA as h.2 k hk
  | .optArg _ l _ :: as, h, k, hk => by
    simp only [ShapeArgs] at h
    simp only [textNodesL, textNodes, List.mem_append, List.mem_cons] at hk
    rcases hk with (rfl | hk) | hk
    · exact scriptOK_leaf (by simp)
    · exact script_textL l h.1 k hk
    · exact script_textA as h.2 k hk
  | .nil :: _, h, k, hk => by simp [ShapeArgs] at h
  | .list _ :: _, h, k, hk => by simp [ShapeArgs] at h
  | .macro _ _ :: _, h, k, hk => by simp [ShapeArgs] at h
  | .ident _ _ :: _, h, k, hk => by simp [ShapeArgs] at h
  | .math _ _ _ _ :: _, h, k, hk => by simp [ShapeArgs] at h
  | .word _ _ :: _, h, k, hk => by simp [ShapeArgs] at h
  | .lit _ _ :: _, h, k, hk => by simp [ShapeArgs] at h
  | .sym _ _ :: _, h, k, hk => by simp [ShapeArgs] at h
  | .sub _ _ :: _, h, k, hk => by simp [ShapeArgs] at h
  | .sup _ _ :: _, h, k, hk => by simp [ShapeArgs] at h
end

/-! ## Macro signatures -/

/-- The signature of a macro name. -/
def sigOf (name : GoString) : GoString :=
  if name = bs!"\\sqrt" then bs!"OA" else if name ∈ twoArg then bs!"AA"
  else if name ∈ oneArg then bs!"A" else []

theorem table_sigs : (latexMacros.all fun e => e.2 == if e.1 = bs!"\\genfrac" then none else some (sigOf e.1)) = true := by
  krfl

theorem table_has : ((bs!"\\sqrt" :: bs!"\\genfrac" :: (twoArg ++ oneArg)).all fun n => (latexMacros.lookup n).isSome) = true := by
  krfl

theorem lookup_mem {α β} [BEq α] [LawfulBEq α] {a : α} {b : β} : ∀ {l : List (α × β)}, l.lookup a = some b → (a, b) ∈ l
  | [], h => by simp at h
  | (k, v) :: l, h => by
    rw [List.lookup_cons] at h
    split at h
    · rename_i he
      simp only [beq_iff_eq] at he
      simp only [Option.some.injEq] at h
      subst he h; simp
    · exact List.mem_cons_of_mem _ (lookup_mem h)

theorem macroLookup_sig {name sig} (h : macroLookup name = some (some sig)) :
    sig = sigOf name ∧ name ≠ bs!"\\genfrac" ∧
      ((latexMacros.lookup name).isSome ∨ ∃ k, name = ch!"\\" :: k ∧ (tex2uni.lookup k).isSome) := by
  unfold macroLookup at h
  split at h
  · rename_i e he
    have h1 := List.all_eq_true.1 table_sigs _ (lookup_mem he)
    simp only [Option.some.injEq] at h
    subst h
    simp only [beq_iff_eq] at h1
    split at h1
    · simp at h1
    · rename_i hg
      exact ⟨Option.some.inj h1, hg, .inl (by rw [he]; rfl)⟩
  · rename_i he
    have hn : ∀ n ∈ bs!"\\sqrt" :: bs!"\\genfrac" :: (twoArg ++ oneArg), name ≠ n := by
      rintro n hn rfl
      have := List.all_eq_true.1 table_has _ hn
      simp [he] at this
    split at h
    · rename_i c k
      split at h
      · rename_i hc
        simp only [Option.some.injEq] at h
        refine ⟨?_, hn _ (by simp), .inr ⟨k, by rw [hc.1], hc.2⟩⟩
        rw [← h, sigOf, if_neg (hn _ (by simp)), if_neg, if_neg]
        · intro hm; exact hn _ (by simp [hm]) rfl
        · intro hm; exact hn _ (by simp [hm]) rfl
      · simp at h
    · simp at h

theorem argsOf_of_match {name args} (h : ArgsMatch (canonSig (sigOf name)) args) : ArgsOf name args := by
  unfold sigOf at h
  unfold ArgsOf
  split
  · rename_i hs
    rw [if_pos hs] at h
    change ArgsMatch bs!"OA" args at h
    cases h with
    | opt a l b h => cases h with
      | arg a' l' b' h => cases h; exact .inr ⟨_, _, _, _, _, _, rfl⟩
    | noOpt h => cases h with
      | arg a' l' b' h => cases h; exact .inl ⟨_, _, _, rfl⟩
  · rename_i hs
    rw [if_neg hs] at h
    split
    · rename_i h2
      rw [if_pos h2] at h
      change ArgsMatch bs!"AA" args at h
      cases h with
      | arg a l b h => cases h with
        | arg a' l' b' h => cases h; exact ⟨_, _, _, _, _, _, rfl⟩
    · rename_i h2
      rw [if_neg h2] at h
      split
      · rename_i h3
        rw [if_pos h3] at h
        change ArgsMatch bs!"A" args at h
        cases h with
        | arg a l b h => cases h; exact ⟨_, _, _, rfl⟩
      · rename_i h3
        rw [if_neg h3] at h
        change ArgsMatch [] args at h
        cases h; rfl

end Verif
