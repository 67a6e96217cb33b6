import Verif.Lemmas.HeapMtex
/-! # mtex on objects: the walk, and `Parse` -/

namespace Verif
open GoFloat Spec
variable {F : Type} [GoFloat F]

/-! ## Two walks -/

/-- Two visitors that do the same on related states. -/
def SameVisit {S S' : Type} (R : S → S' → Prop) (visit : Visit Unit S) (visit' : Visit Unit S') : Prop :=
  ∀ n s s', R s s' → RelRes (fun a b => a.1 = b.1 ∧ R a.2 b.2) (visit () n s) (visit' () n s')

section
variable {S S' : Type} {R : S → S' → Prop} {visit : Visit Unit S} {visit' : Visit Unit S'}

theorem walkIdent_rel (hv : SameVisit R visit visit') (p : Nat) (x : GoString) (s : S) (s' : S') (h : R s s') :
    RelRes R (walkIdent visit () p x s) (walkIdent visit' () p x s') := by
  unfold walkIdent
  refine (hv _ s s' h).bind fun a b hab => ?_
  obtain ⟨a1, a2⟩ := a
  obtain ⟨b1, b2⟩ := b
  obtain ⟨rfl, h2⟩ := hab
  cases a1 with
  | none => exact h2
  | some w => exact (hv _ _ _ h2).bind fun a b hab => hab.2

mutual
theorem walk_rel (hv : SameVisit R visit visit') : ∀ (n : Node) (s : S) (s' : S'), R s s' →
    RelRes R (walk visit () n s) (walk visit' () n s')
  | n, s, s', h => by
    rw [walk, walk]
    refine (hv n s s' h).bind fun a b hab => ?_
    obtain ⟨a1, a2⟩ := a
    obtain ⟨b1, b2⟩ := b
    obtain ⟨rfl, h2⟩ := hab
    cases a1 with
    | none => exact h2
    | some w =>
      dsimp only
      refine RelRes.bind (Q := R) ?_ fun a b hab => (hv _ _ _ hab).bind fun a b hab => hab.2
      match n with
      | .nil => exact rfl
      | .list l => exact walkList_rel hv l _ _ h2
      | .macro none args => exact walkList_rel hv args _ _ h2
      | .macro (some (p, x)) args => exact (walkIdent_rel hv p x _ _ h2).bind fun a b hab => walkList_rel hv args _ _ hab
      | .arg _ l _ => exact walkList_rel hv l _ _ h2
      | .optArg _ l _ => exact walkList_rel hv l _ _ h2
      | .ident _ _ => exact h2
      | .math _ _ l _ => exact walkList_rel hv l _ _ h2
      | .word _ _ => exact h2
      | .lit _ _ => exact h2
      | .sym _ _ => exact h2
      | .sub _ n => exact walk_rel hv n _ _ h2
      | .sup _ n => exact walk_rel hv n _ _ h2
theorem walkList_rel (hv : SameVisit R visit visit') : ∀ (l : List Node) (s : S) (s' : S'), R s s' →
    RelRes R (walkList visit () l s) (walkList visit' () l s')
  | [], s, s', h => by rw [walkList, walkList]; exact h
  | n :: l, s, s', h => by
    rw [walkList, walkList]
    exact (walk_rel hv n s s' h).bind fun a b hab => walkList_rel hv l _ _ hab
end
end

/-- The two visitors: the same state, and the nodes of the one are at the addresses of the other. -/
def VRel (h0 : Heap F) (q : VH F) (v : VSt F) : Prop :=
  q.1.st = v.st ∧ q.1.math = v.math ∧ Fr h0.length h0 q.2 ∧ HeldMany q.2 h0.length q.1.nodes v.nodes []

theorem visitEach_rel {h0 : Heap F} {visit : Visit Unit (VH F)} {visit' : Visit Unit (VSt F)} (hv : SameVisit (VRel h0) visit visit')
    (l : List Node) (q : VH F) (v : VSt F) (h : VRel h0 q v) : RelRes (VRel h0) (hVisitEach visit l q) (visitEach visit' l v) := by
  induction l generalizing q v with
  | nil => exact h
  | cons n l ih => exact (hv n q v h).bind fun a b hab => ih _ _ hab.2

theorem rel_withH {α β : Type} {h0 : Heap F} {m : HM F α} {p : Res β} {q : VH F} {v : VSt F} (h : VRel h0 q v)
    {Q : Heap F → α → β → Prop} (hm : Run m q.2 h0.length p Q) {f : α → Option Unit × HVSt F} {g : β → Option Unit × VSt F}
    (k : ∀ h' a b, Q h' a b → (f a).1 = (g b).1 ∧ (f a).2.st = (g b).2.st ∧ (f a).2.math = (g b).2.math ∧
      HeldMany h' h0.length (f a).2.nodes (g b).2.nodes []) :
    RelRes (fun a b => a.1 = b.1 ∧ VRel h0 a.2 b.2) (withH m q f) (p >>= fun b => .ok (g b)) := by
  unfold withH
  refine RelRes.bind hm fun a b hab => ?_
  obtain ⟨h1, h2, h3, h4⟩ := k _ _ _ hab.2
  exact ⟨h1, h2, h3, h.2.2.1.trans hab.1, h4⟩

theorem heldMany_push {h : Heap F} {base : Nat} {rs rs' : List Ref} {ts ts' : List (TNode F)} {l : List (Ref × TNode F)}
    (e1 : rs = l.map (·.1)) (e2 : ts = l.map (·.2)) (a : HeldMany h base rs' ts' l) : HeldMany h base (rs ++ rs') (ts ++ ts') [] := by
  obtain ⟨l', rfl, rfl, b⟩ := a
  subst e1 e2
  exact ⟨l ++ l', by simp, by simp, by rw [List.append_nil]; exact b.perm List.perm_append_comm⟩

theorem heldMany_push1 {h : Heap F} {base : Nat} {rs : List Ref} {ts : List (TNode F)} {l : List (Ref × TNode F)} {r : Ref} {t : TNode F}
    (e1 : rs = l.map (·.1)) (e2 : ts = l.map (·.2)) (a : Held h base ((r, t) :: l)) : HeldMany h base (rs ++ [r]) (ts ++ [t]) [] :=
  heldMany_push e1 e2 ⟨[(r, t)], rfl, rfl, a⟩

theorem makes_handleNode (be : Backend F) {visit : Visit Unit (VH F)} {visit' : Visit Unit (VSt F)}
    (hv : ∀ h0, SameVisit (VRel h0) visit visit') : MakesList (hHandleNode be visit) (handleNode be visit') := by
  intro st math l h
  unfold Run hHandleNode handleNode
  have hr : VRel h (⟨[], st, math⟩, h) (⟨[], st, math⟩ : VSt F) := ⟨rfl, rfl, .rfl, [], rfl, rfl, held_nil h⟩
  rw [bind_assoc']
  refine (walk_rel (hv h) (.list l) _ _ hr).bind fun q v hq => ?_
  obtain ⟨_, _, hf, l', e1, e2, hh⟩ := hq
  rw [e1, e2]
  obtain ⟨r, h', e, f, k⟩ := does_hlistOf be hh true
  rw [e]
  exact ⟨hf.trans f, k⟩
where
  bind_assoc' {α β γ : Type} {x : Res α} {f : α → Res β} {g : β → Res γ} : ((x >>= f) >>= g) = (x >>= fun a => f a >>= g) := by
    cases x <;> rfl

theorem hVisit_rel (be : Backend F) (num : GoString → Option F) (x : GoString) (fuel : Nat) :
    ∀ h0 : Heap F, SameVisit (VRel h0) (hVisit be num x fuel) (mtexVisit be num x fuel) := by
  induction fuel with
  | zero => intro h0 n q v _; exact trivial
  | succ fuel ih =>
    intro h0 n q v hq
    have hq' := hq
    obtain ⟨e1, e2, hf, l, e3, e4, hh⟩ := hq
    rw [List.append_nil] at hh
    have hml := makes_handleNode be ih
    unfold hVisit mtexVisit
    dsimp only
    rw [← e1, ← e2]
    match n with
    | .list _ => exact ⟨rfl, hq'⟩
    | .sym p t =>
      dsimp only
      split
      · cases handlerOf t with
        | none => exact rfl
        | some hk => exact rel_withH hq' (run_handle be num x hml _ _ _ _ hh) fun h' a b hab => ⟨rfl, e1, e2, heldMany_push1 e3 e4 hab⟩
      · exact rel_withH hq' (run_newChar be t _ _ hh) fun h' a b hab => ⟨rfl, e1, e2, heldMany_push1 e3 e4 hab⟩
    | .word p t =>
      dsimp only
      have := rel_withH (g := fun y => (some (), v.push [y])) hq' (run_charList be q.1.st q.1.math (decode t) hh) (f := fun y => (some (), q.1.push [y]))
        fun h' a b hab => ⟨rfl, e1, e2, heldMany_push1 e3 e4 hab⟩
      cases hn : newChars be q.1.st q.1.math (decode t) with
      | ok y => rw [hn] at this; exact this
      | panic y => rw [hn] at this; exact this
      | fuel => rw [hn] at this; exact this
    | .lit p t =>
      exact rel_withH hq' (run_literalChars be x _ _ _ hh) fun h' a b hab => ⟨rfl, e1, e2, heldMany_push e3 e4 hab⟩
    | .math a b l c =>
      dsimp only
      have : VRel h0 ({ q.1 with math := true, st := q.1.st.withType mathDefault }, q.2)
          { v with math := true, st := q.1.st.withType mathDefault } := ⟨rfl, rfl, hf, hq'.2.2.2⟩
      refine (visitEach_rel (ih h0) l _ _ this).bind fun a b hab => ?_
      obtain ⟨k1, _, k3, k4⟩ := hab
      exact ⟨rfl, by rw [k1], rfl, k3, k4⟩
    | .macro none _ => exact rfl
    | .macro (some (p, name)) args =>
      dsimp only
      cases handlerOf name with
      | none => exact rfl
      | some hk => exact rel_withH hq' (run_handle be num x hml _ _ _ _ hh) fun h' a b hab => ⟨rfl, e1, e2, heldMany_push1 e3 e4 hab⟩
    | .nil => exact ⟨rfl, hq'⟩
    | .arg _ _ _ => exact rfl
    | .optArg _ _ _ => exact rfl
    | .ident _ _ => exact rfl
    | .sub _ _ => exact rfl
    | .sup _ _ => exact rfl

/-- `mtex.Parse` makes a new box: the one the model with values describes. -/
theorem makes_parse (U : Nat → Bool) (be : Backend F) (num : GoString → Option F) (x : GoString) (size dpi : F) :
    Makes (hParse U be num x size dpi) (mtexParse U be num x size dpi >>= fun q => .ok (.list .h q.1 q.2)) := by
  intro h
  unfold Run hParse mtexParse collect
  cases parseExpr U x with
  | panic p => exact rfl
  | fuel => exact trivial
  | ok n =>
    simp only [Res.ok_bind]
    rw [makes_handleNode.bind_assoc', makes_handleNode.bind_assoc']
    have hr : VRel h (⟨[], initState size dpi, false⟩, h) (⟨[], initState size dpi, false⟩ : VSt F) :=
      ⟨rfl, rfl, .rfl, [], rfl, rfl, held_nil h⟩
    refine (walk_rel (hVisit_rel be num x _ h) n _ _ hr).bind fun q v hq => ?_
    obtain ⟨_, _, hf, l', e1, e2, hh⟩ := hq
    rw [e1, e2]
    obtain ⟨r, h', e, f, k⟩ := does_hlistOf be hh true
    rw [e]
    exact ⟨hf.trans f, k⟩

end Verif
