import Lean.Elab.Term
/-!
# Go strings and outcomes

A Go `string` is an arbitrary sequence of bytes.  We use `List Nat`, each element
standing for one byte.  (Elements `≥ 256` do not occur in Go; nothing in the
model relies on their absence, so the theorems are merely stated for slightly
more inputs than exist.)
-/

namespace Verif

/-- A Go string: the list of its bytes. -/
abbrev GoString := List Nat

open Lean Elab Term in
/-- `bs!"abc"` is the list of the UTF-8 bytes of the literal, as plain numerals:
`[97, 98, 99]`. Expanded at elaboration time, so the kernel only sees numerals. -/
elab:max "bs!" s:str : term => do
  let bytes := s.getString.toUTF8.toList
  let elems : List Expr := bytes.map fun b => mkNatLit b.toNat
  Lean.Meta.mkListLit (mkConst ``Nat) elems

/- A single character literal as a rune number: `ch!"a"` is `97`. -/
open Lean Elab Term in
elab:max "ch!" s:str : term => do
  match s.getString.toList with
  | [c] => return Lean.mkNatLit c.toNat
  | _ => throwError "ch! expects exactly one character"

/-- Where a Go panic was raised. -/
inductive Panic where
  /-- scanner.go:151 `unhandled token` -/
  | unhandledToken (r : Nat)
  /-- parser.go:94 (`{` in text mode) -/
  | lbraceNotImplemented
  /-- parser.go:99 (`token.Other`) -/
  | otherNotImplemented
  /-- parser.go:114 `impossible` -/
  | impossible
  /-- parser.go:165 `unknown macro` -/
  | unknownMacro (name : GoString)
  /-- parser.go:168 on a nil `macroParser` (the table entry of `\genfrac`, macros.go:64) -/
  | nilMacro
  /-- parser.go:64 `expected ..., got ...` -/
  | expected (r : Nat)
  /-- any other panic site, identified by a short text -/
  | other (site : String)
deriving DecidableEq, Repr

/-- Outcome of running Go code. `fuel` is not a Go outcome: it means that the
model's recursion bound was too small. -/
inductive Res (α : Type) where
  | ok (a : α)
  | panic (p : Panic)
  | fuel
deriving DecidableEq, Repr

namespace Res

protected def bind {α β : Type} : Res α → (α → Res β) → Res β
  | ok a, f => f a
  | panic p, _ => panic p
  | fuel, _ => fuel

instance : Monad Res where
  pure := ok
  bind := Res.bind

@[simp] theorem pure_eq {α : Type} (a : α) : (pure a : Res α) = ok a := rfl
@[simp] theorem ok_bind {α β : Type} (a : α) (f : α → Res β) : (ok a >>= f) = f a := rfl
@[simp] theorem panic_bind {α β : Type} (p : Panic) (f : α → Res β) :
    ((panic p : Res α) >>= f) = panic p := rfl
@[simp] theorem fuel_bind {α β : Type} (f : α → Res β) : ((fuel : Res α) >>= f) = fuel := rfl

theorem bind_eq_ok {α β : Type} {x : Res α} {f : α → Res β} {b : β} :
    (x >>= f) = ok b ↔ ∃ a, x = ok a ∧ f a = ok b := by
  cases x <;> simp

theorem bind_eq_fuel {α β : Type} {x : Res α} {f : α → Res β} :
    (x >>= f) = fuel ↔ x = fuel ∨ ∃ a, x = ok a ∧ f a = fuel := by
  cases x <;> simp

/-- Apply a function to a successful result. -/
def map {α β : Type} (f : α → β) : Res α → Res β
  | ok a => ok (f a)
  | panic p => panic p
  | fuel => fuel

@[simp] theorem map_ok {α β : Type} (f : α → β) (a : α) : (ok a).map f = ok (f a) := rfl
@[simp] theorem map_panic {α β : Type} (f : α → β) (p : Panic) : (panic p : Res α).map f = panic p := rfl
@[simp] theorem map_fuel {α β : Type} (f : α → β) : (fuel : Res α).map f = fuel := rfl

end Res
end Verif
