import Verif.Model.Bytes
/-! # ast/ast.go and ast/walk.go -/

namespace Verif

/-- The node types of ast/ast.go:16-163 (`Node` and its implementations).
`Node.nil` is the nil interface value; nil pointers inside a non-nil interface are not
modelled, except a macro whose `Name` is nil (`name := none`).  A nil slice and an
empty slice are identified.  Positions are non-negative here (token.Pos is an int). -/
inductive Node where
  | nil
  /-- ast/ast.go:25 `List` -/
  | list (l : List Node)
  /-- ast/ast.go:46-49 `Macro`; `name` is `(NamePos, Name)` of its `Ident` -/
  | macro (name : Option (Nat × GoString)) (args : List Node)
  /-- ast/ast.go:63-67 `Arg` -/
  | arg (lbrace : Nat) (l : List Node) (rbrace : Nat)
  /-- ast/ast.go:76-80 `OptArg` -/
  | optArg (lbrack : Nat) (l : List Node) (rbrack : Nat)
  /-- ast/ast.go:86-89 `Ident` -/
  | ident (pos : Nat) (name : GoString)
  /-- ast/ast.go:99-104 `MathExpr` -/
  | math (delim : GoString) (left : Nat) (l : List Node) (right : Nat)
  /-- ast/ast.go:110-113 `Word` -/
  | word (pos : Nat) (text : GoString)
  /-- ast/ast.go:119-122 `Literal` -/
  | lit (pos : Nat) (text : GoString)
  /-- ast/ast.go:128-131 `Symbol` -/
  | sym (pos : Nat) (text : GoString)
  /-- ast/ast.go:140-143 `Sub` -/
  | sub (pos : Nat) (node : Node)
  /-- ast/ast.go:152-155 `Sup` -/
  | sup (pos : Nat) (node : Node)
deriving Repr

namespace Node

/-- The `Pos` methods of ast/ast.go:28-33, 52, 69, 82, 91, 107, 116, 125, 134, 146, 158.
`none` is a nil dereference panic. -/
def posOf : Node → Option Int
  | .nil => none
  | .list [] => some (-1)
  | .list (x :: _) => posOf x
  | .macro none _ => none
  | .macro (some (p, _)) _ => some p
  | .arg lb _ _ => some lb
  | .optArg lb _ _ => some lb
  | .ident p _ => some p
  | .math _ left _ _ => some left
  | .word p _ => some p
  | .lit p _ => some p
  | .sym p _ => some p
  | .sub p _ => some p
  | .sup p _ => some p

mutual
/-- The `End` methods of ast/ast.go:35-40, 53-58, 70, 83, 92, 108, 117, 126, 135, 147, 159.
`none` is a nil dereference panic. -/
def endOf : Node → Option Int
  | .nil => none
  | .list l => endOfLast (some (-1)) l
  | .macro none [] => none
  | .macro (some (p, name)) args => endOfLast (some (p + name.length)) args
  | .macro none (a :: args) => endOfLast none (a :: args)
  | .arg _ _ rb => some rb
  | .optArg _ _ rb => some rb
  | .ident p name => some (p + name.length)
  | .math _ _ _ right => some right
  | .word p t => some (p + t.length)
  | .lit p t => some (p + t.length)
  | .sym p t => some (p + t.length)
  | .sub _ n => endOf n
  | .sup _ n => endOf n
/-- `x[len(x)-1].End()`, or the given default for an empty slice. -/
def endOfLast (dflt : Option Int) : List Node → Option Int
  | [] => dflt
  | [n] => endOf n
  | _ :: l => endOfLast dflt l
end

/-- `node == nil` -/
def isNil : Node → Bool
  | .nil => true
  | _ => false

end Node

section Walk
variable {V S : Type}

/-- A `Visitor` (ast/walk.go:12-14): visitors are values of `V`, their effects act on a
state `S`; `visit v n s` is the outcome of `v.Visit(n)` in state `s`: the returned visitor
(`none` for nil) and the new state.  A visitor may panic. -/
abbrev Visit (V S : Type) := V → Node → S → Res (Option V × S)

/-- `Walk(v, n.Name)` (ast/walk.go:34) for a macro name, an `*Ident` (ast/walk.go:44-45). -/
def walkIdent (visit : Visit V S) (v : V) (pos : Nat) (name : GoString) (s : S) : Res S :=
  visit v (.ident pos name) s >>= fun r =>
    match r with
    | (none, s1) => .ok s1
    | (some w, s1) => visit w .nil s1 >>= fun r2 => .ok r2.2

mutual
/-- ast/walk.go:21-64 `Walk` -/
def walk (visit : Visit V S) (v : V) (n : Node) (s : S) : Res S :=
  visit v n s >>= fun r =>
    match r with
    | (none, s1) => .ok s1
    | (some w, s1) =>
      (match n with
       | .nil => .panic (.other "ast.Walk: unknown ast node")
       | .list l => walkList visit w l s1
       | .macro none args => walkList visit w args s1
       | .macro (some (p, x)) args =>
          walkIdent visit w p x s1 >>= fun s2 => walkList visit w args s2
       | .arg _ l _ => walkList visit w l s1
       | .optArg _ l _ => walkList visit w l s1
       | .ident _ _ => .ok s1
       | .math _ _ l _ => walkList visit w l s1
       | .word _ _ => .ok s1
       | .lit _ _ => .ok s1
       | .sym _ _ => .ok s1
       | .sub _ n => walk visit w n s1
       | .sup _ n => walk visit w n s1) >>= fun s2 =>
      visit w .nil s2 >>= fun r2 => .ok r2.2
/-- ast/walk.go:66-70 `walkNodes`, and the loop ast/walk.go:28-30 -/
def walkList (visit : Visit V S) (v : V) (l : List Node) (s : S) : Res S :=
  match l with
  | [] => .ok s
  | n :: l => walk visit v n s >>= fun s1 => walkList visit v l s1
end

/-- ast/walk.go:72-79 `inspector.Visit`: the visitor is the function itself. -/
def inspectorVisit (f : Node → S → Res (Bool × S)) : Visit Unit S := fun _ n s =>
  f n s >>= fun r => .ok (if r.1 then some () else none, r.2)

/-- ast/walk.go:86-88 `Inspect` -/
def inspect (f : Node → S → Res (Bool × S)) (n : Node) (s : S) : Res S :=
  walk (inspectorVisit f) () n s

end Walk
end Verif
