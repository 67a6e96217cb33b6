import Verif.Lemmas.Ship
/-! # Rigid lists ignore their glue setting -/

namespace Verif
variable {F : Type} [GoFloat F]
open GoFloat Spec

/-- Header of a list with the stale glue setting reset. -/
def freshen (hd : LHead F) : LHead F := if hd.sign = 0 then { hd with set := zero } else hd

theorem freshen_box (hd : LHead F) : (freshen hd).box = hd.box := by unfold freshen; split <;> rfl
theorem freshen_shift (hd : LHead F) : (freshen hd).shift = hd.shift := by unfold freshen; split <;> rfl
theorem freshen_width (hd : LHead F) (b : BoxD F) :
    ({ box := b, shift := hd.shift, set := (freshen hd).set, sign := (freshen hd).sign, order := (freshen hd).order } : LHead F) =
    freshen ⟨b, hd.shift, hd.set, hd.sign, hd.order⟩ := by
  unfold freshen; split <;> simp_all

theorem glueStep_freshen (hd : LHead F) (g : GlueD F) (q : GlueSt F) : glueStep (freshen hd) g q = glueStep hd g q := by
  unfold freshen
  split
  · rename_i h; simp only [glueStep, h, ne_eq, not_true_eq_false, if_false]
  · rfl

/-- A result with a function applied. -/
def Res.on {α β : Type} (f : α → β) : Res α → Res β
  | .ok a => .ok (f a)
  | .panic e => .panic e
  | .fuel => .fuel

theorem Res.on_bind {α β γ : Type} (f : β → γ) (r : Res α) (g : α → Res β) : (r >>= g).on f = r >>= fun x => (g x).on f := by
  cases r <;> rfl
theorem Res.bind_on {α β γ : Type} (f : α → β) (r : Res α) (g : β → Res γ) : (r.on f >>= g) = r >>= fun x => g (f x) := by
  cases r <;> rfl

theorem unstaleHs {o : Off F} {cs : List (TNode F)}
    (ih : ∀ c ∈ cs, ∀ hd base q st, hNode o (freshen hd) base (unstale c) q st =
      (hNode o hd base c q st).on fun x => (x.1, unstale x.2.1, x.2.2)) (hd : LHead F) (base : F) (q : GlueSt F) (st : ShipSt F) :
    hLoop o (freshen hd) base (unstaleAll cs) q st = (hLoop o hd base cs q st).on fun x => (x.1, unstaleAll x.2) := by
  induction cs generalizing q st with
  | nil => rw [unstaleAll, hLoop, hLoop]; rfl
  | cons n l ihl =>
    rw [unstaleAll, hLoop, hLoop, ih n List.mem_cons_self, Res.bind_on, Res.on_bind]
    congr 1; funext ⟨st1, n1, q1⟩
    simp only [ihl (fun c hc => ih c (List.mem_cons_of_mem _ hc)), Res.bind_on, Res.on_bind]
    rfl

theorem unstaleVs {o : Off F} {cs : List (TNode F)}
    (ih : ∀ c ∈ cs, ∀ hd base q st, vNode o (freshen hd) base (unstale c) q st =
      (vNode o hd base c q st).on fun x => (x.1, unstale x.2.1, x.2.2)) (hd : LHead F) (base : F) (q : GlueSt F) (st : ShipSt F) :
    vLoop o (freshen hd) base (unstaleAll cs) q st = (vLoop o hd base cs q st).on fun x => (x.1, unstaleAll x.2) := by
  induction cs generalizing q st with
  | nil => rw [unstaleAll, vLoop, vLoop]; rfl
  | cons n l ihl =>
    rw [unstaleAll, vLoop, vLoop, ih n List.mem_cons_self, Res.bind_on, Res.on_bind]
    congr 1; funext ⟨st1, n1, q1⟩
    simp only [ihl (fun c hc => ih c (List.mem_cons_of_mem _ hc)), Res.bind_on, Res.on_bind]
    rfl

theorem unstale_empty (cs : List (TNode F)) : (unstaleAll cs).isEmpty = cs.isEmpty := by cases cs <;> simp [unstaleAll]

theorem Res.on_ite {α β : Type} (f : α → β) (p : Prop) [Decidable p] (a b : Res α) :
    (if p then a else b).on f = if p then a.on f else b.on f := by split <;> rfl

theorem unstale_node (o : Off F) (n : TNode F) :
    (∀ hd base q st, hNode o (freshen hd) base (unstale n) q st =
      (hNode o hd base n q st).on fun x => (x.1, unstale x.2.1, x.2.2)) ∧
    (∀ hd base q st, vNode o (freshen hd) base (unstale n) q st =
      (vNode o hd base n q st).on fun x => (x.1, unstale x.2.1, x.2.2)) := by
  refine tnode_ind (P := fun n => (∀ hd base q st, hNode o (freshen hd) base (unstale n) q st =
      (hNode o hd base n q st).on fun x => (x.1, unstale x.2.1, x.2.2)) ∧
    (∀ hd base q st, vNode o (freshen hd) base (unstale n) q st =
      (vNode o hd base n q st).on fun x => (x.1, unstale x.2.1, x.2.2))) (fun n hn => ?_) ?_ n
  · constructor <;> intro hd base q st
    · cases n with
      | list k hd cs => exact absurd rfl (hn _ _ _)
      | glue g => rw [show unstale (.glue g : TNode F) = .glue g from rfl, hNode, hNode, glueStep_freshen]; rfl
      | box b => rw [show unstale (.box b : TNode F) = .box b from rfl, hNode, hNode, freshen_box, Res.on_ite]; rfl
      | rule b => rw [show unstale (.rule b : TNode F) = .rule b from rfl, hNode, hNode, freshen_box, Res.on_ite]; rfl
      | _ => rfl
    · cases n with
      | list k hd cs => exact absurd rfl (hn _ _ _)
      | glue g => rw [show unstale (.glue g : TNode F) = .glue g from rfl, vNode, vNode, glueStep_freshen]; rfl
      | box b => rw [show unstale (.box b : TNode F) = .box b from rfl, vNode, vNode, Res.on_ite]; rfl
      | rule b => rw [show unstale (.rule b : TNode F) = .rule b from rfl, vNode, vNode, freshen_box, Res.on_ite]; rfl
      | _ => rfl
  · intro k nd cs ih
    have ihH := unstaleHs fun c hc => (ih c hc).1
    have ihV := unstaleVs fun c hc => (ih c hc).2
    have e : unstale (.list k nd cs) = .list k (freshen nd) (unstaleAll cs) := by rw [unstale]; rfl
    have e' : ∀ k nd cs, unstale (.list k nd cs : TNode F) = .list k (freshen nd) (unstaleAll cs) := fun _ _ _ => by rw [unstale]; rfl
    constructor <;> intro hd base q st
    · cases k with
      | plain => rw [e, hNode, hNode, freshen_box, freshen_box, Res.on_ite, Res.on, Res.on, e]
      | h =>
        rw [e, hNode, hNode, unstale_empty, freshen_box, freshen_shift, Res.on_ite, Res.on_bind, ihH, Res.bind_on]
        simp only [Res.on, e']
      | v =>
        rw [e, hNode, hNode, unstale_empty, freshen_box, freshen_shift, Res.on_ite, Res.on_bind, ihV, Res.bind_on]
        simp only [Res.on, e']
    · cases k with
      | plain => rw [e, vNode, vNode, freshen_box, Res.on_ite, Res.on, Res.on, e]
      | h =>
        rw [e, vNode, vNode, unstale_empty, Res.on_ite, Res.on_bind]
        simp only [freshen_box, freshen_shift, freshen_width, ihH, Res.bind_on]
        simp only [Res.on, e']
      | v =>
        rw [e, vNode, vNode, unstale_empty, Res.on_ite, Res.on_bind]
        simp only [freshen_box, freshen_shift, freshen_width, ihV, Res.bind_on]
        simp only [Res.on, e']

end Verif
