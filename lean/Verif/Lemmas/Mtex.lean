import Verif.Model.Mtex
import Mathlib.Tactic.SplitIfs
/-! # The visitor of mtex by recursion on the tree -/

namespace Verif
variable {F : Type} [GoFloat F]
open GoFloat

/-- The `HList` of some nodes. -/
def hl (be : Backend F) (l : List (TNode F)) : TNode F := .list .h (hbody be l).1 (hbody be l).2

theorem hl_eq (be : Backend F) (l : List (TNode F)) : hl be l = hlistOf be l true := by
  simp [hl, hbody, hlistOf]

/-- The node made for a macro, when `rs` are the nodes collected in its arguments. -/
def build (be : Backend F) (num : GoString → Option F) (x : GoString) (st : TState F) (math : Bool)
    (k : Hk) (pos : Nat) (name : GoString) (args : List Node) (rs : List (Res (List (TNode F)))) : Res (TNode F) :=
  match k with
  | .space => handleSpace be name st
  | .symbol => handleSymbol be x pos name st math
  | .function => handleFunction be name st math
  | .hspace =>
    match args with
    | .arg _ (.lit _ t :: _) _ :: _ =>
      match num t with
      | some v => makeSpace be st v
      | none => .panic (.other "could not parse customspace")
    | _ => .panic (.other "customspace argument")
  | .frac | .tfrac =>
    match args, rs with
    | .arg .. :: .arg .. :: _, r1 :: r2 :: _ =>
      r1 >>= fun a => r2 >>= fun b => genfrac be false (be.underline st.font st.dpi) false (hl be a) (hl be b) st
    | _, _ => .panic (.other "frac arguments")
  | .dfrac =>
    match args, rs with
    | .arg .. :: .arg .. :: _, r1 :: r2 :: _ =>
      r1 >>= fun a => r2 >>= fun b => genfrac be false (be.underline st.font st.dpi) true (hl be a) (hl be b) st
    | _, _ => .panic (.other "frac arguments")
  | .binom =>
    match args, rs with
    | .arg .. :: .arg .. :: _, r1 :: r2 :: _ =>
      r1 >>= fun a => r2 >>= fun b => genfrac be true zero false (hl be a) (hl be b) st
    | _, _ => .panic (.other "frac arguments")
  | .sqrt =>
    match args, rs with
    | [.optArg .., .arg ..], r1 :: r2 :: _ =>
      r1 >>= fun a => r2 >>= fun b => buildSqrt be (some (hl be a)) (hbody be b).1 (hbody be b).2 st
    | [.arg ..], r1 :: _ => r1 >>= fun b => buildSqrt be none (hbody be b).1 (hbody be b).2 st
    | _, _ => .panic (.other "invalid sqrt")
  | .overline =>
    match args, rs with
    | .arg .. :: _, r1 :: _ => r1 >>= fun b => buildOverline be (hbody be b).1 (hbody be b).2 st
    | _, _ => .panic (.other "overline argument")

/-- The node made for a symbol in math. -/
def buildSym (be : Backend F) (x : GoString) (st : TState F) (math : Bool) (pos : Nat) (t : GoString) :
    Option Hk → Res (TNode F)
  | none => .panic (.other "no handler for symbol")
  | some .space => handleSpace be t st
  | some .symbol => handleSymbol be x pos t st math
  | some .hspace => .panic (.other "customspace argument")
  | some .function => .panic (.other "interface conversion")
  | some .sqrt => .panic (.other "invalid sqrt")
  | some .overline => .panic (.other "overline argument")
  | some _ => .panic (.other "frac arguments")

mutual
/-- The nodes appended by `Visit`, by recursion on the tree. -/
def visitN (be : Backend F) (num : GoString → Option F) (x : GoString) (st : TState F) (math : Bool) :
    Node → Res (List (TNode F))
  | .list _ => .ok []
  | .sym pos t =>
    if math then buildSym be x st math pos t (handlerOf t) >>= fun n => .ok [n]
    else newChar be t st math >>= fun c => .ok [.char c]
  | .word _ t => newChars be st math (decode t) >>= fun l => .ok [hlistOf be l true]
  | .lit _ t => literalChars be x st math (decode t)
  | .math _ _ l _ => visitAll be num x (st.withType mathDefault) true l
  | .macro none _ => .panic (.other "macro with nil identifier")
  | .macro (some (pos, name)) args =>
    match handlerOf name with
    | none => .panic (.other "unknown macro")
    | some k => build be num x st math k pos name args (walkArgs be num x st math args) >>= fun n => .ok [n]
  | .nil => .ok []
  | .arg _ _ _ => .panic (.other "unknown ast node")
  | .optArg _ _ _ => .panic (.other "unknown ast node")
  | .ident _ _ => .panic (.other "unknown ast node")
  | .sub _ _ => .panic (.other "unknown ast node")
  | .sup _ _ => .panic (.other "unknown ast node")
/-- The same for several nodes. -/
def visitAll (be : Backend F) (num : GoString → Option F) (x : GoString) (st : TState F) (math : Bool) :
    List Node → Res (List (TNode F))
  | [] => .ok []
  | n :: l => visitN be num x st math n >>= fun a => visitAll be num x st math l >>= fun b => .ok (a ++ b)
/-- The nodes appended by `ast.Walk`. -/
def walkN (be : Backend F) (num : GoString → Option F) (x : GoString) (st : TState F) (math : Bool) :
    Node → Res (List (TNode F))
  | .list l => walkAll be num x st math l
  | .nil => .panic (.other "ast.Walk: unknown ast node")
  | .sym p t => visitN be num x st math (.sym p t)
  | .word p t => visitN be num x st math (.word p t)
  | .lit p t => visitN be num x st math (.lit p t)
  | .math _ _ l _ => visitAll be num x (st.withType mathDefault) true l
  | .macro n args => visitN be num x st math (.macro n args)
  | .arg _ _ _ => .panic (.other "unknown ast node")
  | .optArg _ _ _ => .panic (.other "unknown ast node")
  | .ident _ _ => .panic (.other "unknown ast node")
  | .sub _ _ => .panic (.other "unknown ast node")
  | .sup _ _ => .panic (.other "unknown ast node")
/-- The same for several nodes. -/
def walkAll (be : Backend F) (num : GoString → Option F) (x : GoString) (st : TState F) (math : Bool) :
    List Node → Res (List (TNode F))
  | [] => .ok []
  | n :: l => walkN be num x st math n >>= fun a => walkAll be num x st math l >>= fun b => .ok (a ++ b)
/-- The nodes collected in an argument. -/
def walkArg (be : Backend F) (num : GoString → Option F) (x : GoString) (st : TState F) (math : Bool) :
    Node → Res (List (TNode F))
  | .arg _ l _ => walkAll be num x st math l
  | .optArg _ l _ => walkAll be num x st math l
  | _ => .panic (.other "not an argument")
/-- The nodes collected in each argument. -/
def walkArgs (be : Backend F) (num : GoString → Option F) (x : GoString) (st : TState F) (math : Bool) :
    List Node → List (Res (List (TNode F)))
  | [] => []
  | n :: l => walkArg be num x st math n :: walkArgs be num x st math l
end

/-- What `Visit` returns. -/
def visitRet : Node → Option Unit
  | .math .. => none
  | .macro .. => none
  | _ => some ()

theorem VSt.push_nil (v : VSt F) : v.push [] = v := by simp [VSt.push]
theorem VSt.push_push (v : VSt F) (a b : List (TNode F)) : (v.push a).push b = v.push (a ++ b) := by
  simp [VSt.push]
@[simp] theorem VSt.push_st (v : VSt F) (a : List (TNode F)) : (v.push a).st = v.st := rfl
@[simp] theorem VSt.push_math (v : VSt F) (a : List (TNode F)) : (v.push a).math = v.math := rfl
@[simp] theorem VSt.push_nodes (v : VSt F) (a : List (TNode F)) : (v.push a).nodes = v.nodes ++ a := rfl

theorem res_bind_assoc {α β γ : Type} (r : Res α) (f : α → Res β) (g : β → Res γ) :
    (r >>= f) >>= g = r >>= fun a => f a >>= g := by cases r <;> rfl

section
variable (be : Backend F) (num : GoString → Option F) (x : GoString)

/-- `visit` behaves as `visitN` on trees less deep than `fuel`. -/
def Adeq (visit : Visit Unit (VSt F)) (fuel : Nat) : Prop :=
  ∀ n v, nodeDepth n < fuel → visit () n v = visitN be num x v.st v.math n >>= fun l => .ok (visitRet n, v.push l)

theorem le_depth_cons {n : Node} {l : List Node} {k : Nat} (h : nodesDepth (n :: l) < k) :
    nodeDepth n < k ∧ nodesDepth l < k := by
  simp only [nodesDepth] at h
  exact ⟨Nat.lt_of_le_of_lt (Nat.le_max_left ..) h, Nat.lt_of_le_of_lt (Nat.le_max_right ..) h⟩

mutual
theorem walk_adeq {visit : Visit Unit (VSt F)} {fuel : Nat} (H : Adeq be num x visit fuel) :
    ∀ (n : Node) (v : VSt F), nodeDepth n < fuel →
      walk visit () n v = walkN be num x v.st v.math n >>= fun l => .ok (v.push l)
  | .list l, v, h => by
    have h0 : 0 < fuel := Nat.lt_of_le_of_lt (Nat.zero_le _) h
    have hl : nodesDepth l < fuel := by simp only [nodeDepth] at h; omega
    rw [walk, H _ _ h]
    simp only [visitN, visitRet, Res.ok_bind, VSt.push_nil, walkN]
    rw [walkList_adeq H l v hl, res_bind_assoc]
    congr 1; funext a
    simp only [Res.ok_bind]
    rw [H .nil _ h0]
    simp [visitN, visitRet, VSt.push_nil]
  | .nil, v, h => by
    rw [walk, H _ _ h]; simp [visitN, visitRet, walkN]
  | .sym p t, v, h => by
    have h0 : 0 < fuel := Nat.lt_of_le_of_lt (Nat.zero_le _) h
    rw [walk, H _ _ h, walkN, res_bind_assoc]
    congr 1; funext a
    simp only [visitRet, Res.ok_bind]
    rw [H .nil _ h0]; simp [visitN, VSt.push_nil]
  | .word p t, v, h => by
    have h0 : 0 < fuel := Nat.lt_of_le_of_lt (Nat.zero_le _) h
    rw [walk, H _ _ h, walkN, res_bind_assoc]
    congr 1; funext a
    simp only [visitRet, Res.ok_bind]
    rw [H .nil _ h0]; simp [visitN, VSt.push_nil]
  | .lit p t, v, h => by
    have h0 : 0 < fuel := Nat.lt_of_le_of_lt (Nat.zero_le _) h
    rw [walk, H _ _ h, walkN, res_bind_assoc]
    congr 1; funext a
    simp only [visitRet, Res.ok_bind]
    rw [H .nil _ h0]; simp [visitN, VSt.push_nil]
  | .math d a l b, v, h => by
    rw [walk, H _ _ h, walkN, visitN, res_bind_assoc]
    congr 1
  | .macro name args, v, h => by
    rw [walk, H _ _ h, walkN, res_bind_assoc]
    congr 1
  | .arg .., v, h => by rw [walk, H _ _ h]; simp [visitN, walkN]
  | .optArg .., v, h => by rw [walk, H _ _ h]; simp [visitN, walkN]
  | .ident .., v, h => by rw [walk, H _ _ h]; simp [visitN, walkN]
  | .sub .., v, h => by rw [walk, H _ _ h]; simp [visitN, walkN]
  | .sup .., v, h => by rw [walk, H _ _ h]; simp [visitN, walkN]
theorem walkList_adeq {visit : Visit Unit (VSt F)} {fuel : Nat} (H : Adeq be num x visit fuel) :
    ∀ (l : List Node) (v : VSt F), nodesDepth l < fuel →
      walkList visit () l v = walkAll be num x v.st v.math l >>= fun l => .ok (v.push l)
  | [], v, _ => by simp [walkList, walkAll, VSt.push_nil]
  | n :: l, v, h => by
    obtain ⟨h1, h2⟩ := le_depth_cons h
    rw [walkList, walk_adeq H n v h1, walkAll, res_bind_assoc, res_bind_assoc]
    congr 1; funext a
    simp only [Res.ok_bind]
    rw [walkList_adeq H l _ h2, res_bind_assoc]
    simp only [VSt.push_st, VSt.push_math]
    congr 1; funext b
    simp [VSt.push_push]
end

theorem visitEach_adeq {visit : Visit Unit (VSt F)} {fuel : Nat} (H : Adeq be num x visit fuel) :
    ∀ (l : List Node) (v : VSt F), nodesDepth l < fuel →
      visitEach visit l v = visitAll be num x v.st v.math l >>= fun l => .ok (v.push l)
  | [], v, _ => by simp [visitEach, visitAll, VSt.push_nil]
  | n :: l, v, h => by
    obtain ⟨h1, h2⟩ := le_depth_cons h
    rw [visitEach, H n v h1, visitAll, res_bind_assoc, res_bind_assoc]
    congr 1; funext a
    simp only [Res.ok_bind]
    rw [visitEach_adeq H l _ h2, res_bind_assoc]
    simp only [VSt.push_st, VSt.push_math]
    congr 1; funext b
    simp [VSt.push_push]

theorem handleNode_adeq {visit : Visit Unit (VSt F)} {fuel : Nat} (H : Adeq be num x visit fuel)
    (st : TState F) (math : Bool) (l : List Node) (h' : nodesDepth l + 1 < fuel) :
    handleNode be visit st math l = walkAll be num x st math l >>= fun a => .ok (hbody be a) := by
  rw [handleNode, walk_adeq be num x H _ _ (by simpa [nodeDepth] using h'), walkN, res_bind_assoc]
  rfl

theorem depth_arg {a : Nat} {l : List Node} {b : Nat} {r : List Node} : nodesDepth l + 1 ≤ nodesDepth (.arg a l b :: r) := by
  simp only [nodesDepth, nodeDepth]; exact Nat.le_max_left ..
theorem depth_optArg {a : Nat} {l : List Node} {b : Nat} {r : List Node} :
    nodesDepth l + 1 ≤ nodesDepth (.optArg a l b :: r) := by
  simp only [nodesDepth, nodeDepth]; exact Nat.le_max_left ..
theorem depth_tail {n : Node} {r : List Node} : nodesDepth r ≤ nodesDepth (n :: r) := by
  simp only [nodesDepth]; exact Nat.le_max_right ..

/-- `handle` on a macro, with the arguments built by `walkAll`. -/
theorem handle_macro {visit : Visit Unit (VSt F)} {fuel : Nat} (H : Adeq be num x visit fuel)
    (pos : Nat) (name : GoString) (args : List Node) (st : TState F) (math : Bool)
    (h : nodesDepth args < fuel) (k : Hk) :
    handle be num x (handleNode be visit) k (.macro (some (pos, name)) args) st math =
      build be num x st math k pos name args (walkArgs be num x st math args) := by
  have hn := handleNode_adeq be num x H st math
  have two : ∀ a1 l1 b1 a2 l2 b2 r, args = .arg a1 l1 b1 :: .arg a2 l2 b2 :: r →
      nodesDepth l1 + 1 < fuel ∧ nodesDepth l2 + 1 < fuel := by
    rintro a1 l1 b1 a2 l2 b2 r rfl
    have h1 := depth_arg (a := a1) (l := l1) (b := b1) (r := .arg a2 l2 b2 :: r)
    have h2 := depth_arg (a := a2) (l := l2) (b := b2) (r := r)
    have h3 := depth_tail (n := .arg a1 l1 b1) (r := .arg a2 l2 b2 :: r)
    omega
  cases k <;> simp only [handle, build]
  case hspace =>
    split
    · rename_i heq
      simp only [Node.macro.injEq] at heq
      obtain ⟨-, rfl⟩ := heq
      rfl
    · rename_i hne
      split
      · exact absurd rfl (hne _ _ _ _ _ _ _)
      · rfl
  case sqrt =>
    split
    · rename_i a1 l1 b1 a2 l2 b2 heq
      simp only [Node.macro.injEq] at heq
      obtain ⟨-, rfl⟩ := heq
      have h1 := depth_optArg (a := a1) (l := l1) (b := b1) (r := [.arg a2 l2 b2])
      have h2 := depth_arg (a := a2) (l := l2) (b := b2) (r := [])
      have h3 := depth_tail (n := .optArg a1 l1 b1) (r := [.arg a2 l2 b2])
      rw [hn l1 (by omega), hn l2 (by omega)]
      simp only [walkArgs, walkArg, res_bind_assoc, Res.ok_bind, hl]
    · rename_i a2 l2 b2 heq
      simp only [Node.macro.injEq] at heq
      obtain ⟨-, rfl⟩ := heq
      have h2 := depth_arg (a := a2) (l := l2) (b := b2) (r := [])
      rw [hn l2 (by omega)]
      simp only [walkArgs, walkArg, res_bind_assoc, Res.ok_bind]
    · rename_i hne1 hne2
      split
      · exact absurd rfl (hne1 _ _ _ _ _ _ _)
      · exact absurd rfl (hne2 _ _ _ _)
      · rfl
  case overline =>
    split
    · rename_i a2 l2 b2 r heq
      simp only [Node.macro.injEq] at heq
      obtain ⟨-, rfl⟩ := heq
      have h2 := depth_arg (a := a2) (l := l2) (b := b2) (r := r)
      rw [hn l2 (by omega)]
      simp only [walkArgs, walkArg, res_bind_assoc, Res.ok_bind]
    · rename_i hne
      split
      · exact absurd rfl (hne _ _ _ _ _)
      · rfl
  all_goals
    split
    · rename_i heq
      simp only [Node.macro.injEq] at heq
      obtain ⟨-, rfl⟩ := heq
      obtain ⟨h1, h2⟩ := two _ _ _ _ _ _ _ rfl
      rw [hn _ h1, hn _ h2]
      simp only [walkArgs, walkArg, res_bind_assoc, Res.ok_bind, hl]
    · rename_i hne
      split
      · exact absurd rfl (hne _ _ _ _ _ _ _ _)
      · rfl

theorem handle_sym (hn : TState F → Bool → List Node → Res (LHead F × List (TNode F))) (pos : Nat) (t : GoString)
    (st : TState F) (math : Bool) (k : Hk) :
    handle be num x hn k (.sym pos t) st math = buildSym be x st math pos t (some k) := by
  cases k <;> rfl

/-- With enough fuel, `Visit` is `visitN`. -/
theorem adeq (fuel : Nat) : Adeq be num x (mtexVisit be num x fuel) fuel := by
  induction fuel with
  | zero => intro n v h; exact absurd h (Nat.not_lt_zero _)
  | succ fuel ih =>
    intro n v h
    cases n with
    | list l => simp [mtexVisit, visitN, visitRet, VSt.push_nil]
    | nil => simp [mtexVisit, visitN, visitRet, VSt.push_nil]
    | sym p t =>
      simp only [mtexVisit, visitN, visitRet]
      split
      · cases hk : handlerOf t with
        | none => rfl
        | some k => simp only [handle_sym, res_bind_assoc, Res.ok_bind]
      · simp only [res_bind_assoc, Res.ok_bind]
    | word p t => simp only [mtexVisit, visitN, visitRet, res_bind_assoc, Res.ok_bind]
    | lit p t => simp only [mtexVisit, visitN, visitRet, res_bind_assoc, Res.ok_bind]
    | math d a l b =>
      simp only [mtexVisit, visitN, visitRet]
      have hl : nodesDepth l < fuel := by simp only [nodeDepth] at h; omega
      rw [visitEach_adeq be num x ih l _ hl, res_bind_assoc]
      congr 1
    | «macro» name args =>
      cases name with
      | none => simp [mtexVisit, visitN]
      | some q =>
        obtain ⟨pos, name⟩ := q
        have hl : nodesDepth args < fuel := by simp only [nodeDepth] at h; omega
        simp only [mtexVisit, visitN, visitRet]
        cases hk : handlerOf name with
        | none => rfl
        | some k => simp only [handle_macro be num x ih pos name args _ _ hl, res_bind_assoc, Res.ok_bind]
    | arg => simp [mtexVisit, visitN]
    | optArg => simp [mtexVisit, visitN]
    | ident => simp [mtexVisit, visitN]
    | sub => simp [mtexVisit, visitN]
    | sup => simp [mtexVisit, visitN]

/-- The walk of a visitor is `walkN`. -/
theorem walk_mtex (fuel : Nat) (n : Node) (v : VSt F) (h : nodeDepth n < fuel) :
    walk (mtexVisit be num x fuel) () n v = walkN be num x v.st v.math n >>= fun l => .ok (v.push l) :=
  walk_adeq be num x (adeq be num x fuel) n v h

theorem collect_eq (st : TState F) (math : Bool) (n : Node) :
    collect be num x st math n = walkN be num x st math n := by
  rw [collect, walk_mtex be num x _ n _ (Nat.lt_succ_self _), res_bind_assoc]
  cases walkN be num x st math n <;> rfl

end

end Verif
