import Verif.Model.HeapMtex
import Verif.Model.HeapShip
/-! # What an address stands for

`At h r t S`: the object at `r` in the heap `h`, with everything below it, is the tree `t`, and `S` lists
the addresses met on the way, parents first, children in their order — an address that is met twice
occurs twice. -/

namespace Verif.Spec
open Verif
variable {F : Type}

mutual
/-- The object at `r` is the tree; its nodes are at the addresses `S`. -/
def At (h : Heap F) (r : Ref) : TNode F → List Ref → Prop
  | .box b, S => h[r]? = some (.box b) ∧ S = [r]
  | .char c, S => h[r]? = some (.char c) ∧ S = [r]
  | .accent c, S => h[r]? = some (.accent c) ∧ S = [r]
  | .rule b, S => h[r]? = some (.rule b) ∧ S = [r]
  | .glue g, S => h[r]? = some (.glue g) ∧ S = [r]
  | .kern k, S => h[r]? = some (.kern k) ∧ S = [r]
  | .list k hd ts, S => ∃ rs S', h[r]? = some (.list k hd rs) ∧ S = r :: S' ∧ AtAll h rs ts S'
/-- The same for the elements of a slice. -/
def AtAll (h : Heap F) : List Ref → List (TNode F) → List Ref → Prop
  | [], [], S => S = []
  | r :: rs, t :: ts, S => ∃ S1 S2, S = S1 ++ S2 ∧ At h r t S1 ∧ AtAll h rs ts S2
  | _, _, _ => False
end

/-- The objects at the addresses in `S` are the same in both heaps. -/
def SameAt (S : List Ref) (h h' : Heap F) : Prop := ∀ x ∈ S, h'[x]? = h[x]?

/-- All objects but those at the addresses in `S` are the same in both heaps, and none is gone. -/
def SameBut (S : List Ref) (h h' : Heap F) : Prop := h.length ≤ h'.length ∧ ∀ x, x < h.length → x ∉ S → h'[x]? = h[x]?

/-- What a user of boxes may do with the ones `mtex.Parse` returns; boxes are counted from 0. -/
inductive BoxCall (F : Type) where
  /-- `mtex.Parse(x, size, dpi, be)`: one more box -/
  | parse (x : GoString) (size dpi : F)
  /-- `Shrink()` of a box -/
  | shrink (i : Nat)
  /-- `Grow()` of a box -/
  | grow (i : Nat)
  /-- `Ship.Call(ox, oy, box)` -/
  | ship (i : Nat) (ox oy : F)

variable [GoFloat F]

/-- What becomes of the boxes, and what is drawn, if each box were a value of its own; `out` is what has been drawn before. -/
def asValues (U : Nat → Bool) (be : Backend F) (num : GoString → Option F) : List (BoxCall F) → List (TNode F) → List (Draw F) →
    Res (List (TNode F) × List (Draw F))
  | [], ts, out => .ok (ts, out)
  | .parse x size dpi :: l, ts, out =>
    mtexParse U be num x size dpi >>= fun q => asValues U be num l (ts ++ [.list .h q.1 q.2]) out
  | .shrink i :: l, ts, out =>
    match ts[i]? with
    | some t => asValues U be num l (ts.set i (t.shrink be)) out
    | none => .panic (.other "index out of range")
  | .grow i :: l, ts, out =>
    match ts[i]? with
    | some t => asValues U be num l (ts.set i (t.grow be)) out
    | none => .panic (.other "index out of range")
  | .ship i ox oy :: l, ts, out =>
    match ts[i]? with
    | some (.list k hd cs) => shipCall ox oy hd cs >>= fun q => asValues U be num l (ts.set i (.list k hd q.2)) (out ++ q.1.ops)
    | some _ => .panic (.other "not a Tree")
    | none => .panic (.other "index out of range")

/-- The same calls on objects: the addresses of the boxes, and what is drawn. -/
def asObjects (U : Nat → Bool) (be : Backend F) (num : GoString → Option F) : List (BoxCall F) → List Ref → List (Draw F) →
    HM F (List Ref × List (Draw F))
  | [], rs, out => .ret (rs, out)
  | .parse x size dpi :: l, rs, out => (hParse U be num x size dpi).bind fun r => asObjects U be num l (rs ++ [r]) out
  | .shrink i :: l, rs, out =>
    match rs[i]? with
    | some r => (hShrink be r).bind fun _ => asObjects U be num l rs out
    | none => .lift (.panic (.other "index out of range"))
  | .grow i :: l, rs, out =>
    match rs[i]? with
    | some r => (hGrow be r).bind fun _ => asObjects U be num l rs out
    | none => .lift (.panic (.other "index out of range"))
  | .ship i ox oy :: l, rs, out =>
    match rs[i]? with
    | some r => (hShip ox oy r).bind fun st => asObjects U be num l rs (out ++ st.ops)
    | none => .lift (.panic (.other "index out of range"))

end Verif.Spec
