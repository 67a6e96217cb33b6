import Verif.Model.Ttf
/-!
# The packages font/lm and font/liberation under any schedule

Both packages consist of the same code over different data: a `sync.Once`, a pointer, and a function that parses four faces.
Each call of `Fonts` is a thread; a schedule is a list of thread numbers, and each entry lets that thread make one
step.  The steps are those of `sync.Once.Do` (an atomic load of the flag; a mutex; the flag is checked again; the flag is set and the
mutex released by deferred calls, also if the function panics) and of the function itself.
-/

namespace Verif

/-- The embedded font files. -/
inductive Face where
  | regular | italic | bold | boldItalic
deriving DecidableEq, Repr

/-- Where a call of `Fonts` stands. -/
inductive PC (H : Type) where
  /-- not called yet -/
  | idle
  /-- lm.go:29 `once.Do`: about to look at the flag -/
  | enter
  /-- about to take the mutex -/
  | lock
  /-- about to look at the flag again, with the mutex -/
  | check
  /-- lm.go:30 about to parse the first face -/
  | rm
  /-- lm.go:35 -/
  | it (rm : H)
  /-- lm.go:40 -/
  | bf (rm it : H)
  /-- lm.go:45 -/
  | bfit (rm it bf : H)
  /-- lm.go:50 about to set the pointer -/
  | store (rm it bf bfit : H)
  /-- about to set the flag (deferred); is there a panic? -/
  | finish (panicking : Bool)
  /-- about to release the mutex (deferred) -/
  | unlock (panicking : Bool)
  /-- lm.go:59 about to read the pointer -/
  | load
  /-- the call has returned this pointer -/
  | returned (r : Option (Nat × TtfFonts H))
  /-- the call has panicked -/
  | panicked

/-- The memory: the flag and the mutex of `once`, the pointer `fnts` (`none` is nil; an address and what is there), the
number of allocations made, the faces parsed, in order, and the threads. -/
structure FontMem (H : Type) where
  done : Bool
  holder : Option Nat
  fnts : Option (Nat × TtfFonts H)
  heap : Nat
  parsed : List Face
  pc : Nat → PC H

variable {H : Type}

/-- The program starts. -/
def FontMem.start : FontMem H := ⟨false, none, none, 0, [], fun _ => .idle⟩

/-- Thread `i` goes on to `p`. -/
def FontMem.goto (s : FontMem H) (i : Nat) (p : PC H) : FontMem H := { s with pc := fun j => if j = i then p else s.pc j }

/-- lm.go:31-34 (and 36-39, 41-44, 46-49) `sfnt.Parse`; an error makes `log.Panicf` panic. -/
def FontMem.parse (parse : Face → Option H) (s : FontMem H) (i : Nat) (f : Face) (k : H → PC H) : FontMem H :=
  match parse f with
  | some h => { s with parsed := s.parsed ++ [f] }.goto i (k h)
  | none => { s with parsed := s.parsed ++ [f] }.goto i (.finish true)

/-- One step of thread `i`: font/lm/lm.go:28-60 and font/liberation/liberation.go:27-58 `Fonts`, with `sync.Once.Do` of the standard
library.  A thread that has to wait for the mutex does nothing. -/
def FontMem.step (parse : Face → Option H) (s : FontMem H) (i : Nat) : FontMem H :=
  match s.pc i with
  | .idle => s.goto i .enter
  | .enter => if s.done then s.goto i .load else s.goto i .lock
  | .lock => match s.holder with
    | none => { s with holder := some i }.goto i .check
    | some _ => s
  | .check => if s.done then s.goto i (.unlock false) else s.goto i .rm
  | .rm => s.parse parse i .regular .it
  | .it rm => s.parse parse i .italic (.bf rm)
  | .bf rm it => s.parse parse i .bold (.bfit rm it)
  | .bfit rm it bf => s.parse parse i .boldItalic (.store rm it bf)
  | .store rm it bf bfit =>
    { s with fnts := some (s.heap, ⟨some rm, some rm, some it, some bf, some bfit⟩), heap := s.heap + 1 }.goto i (.finish false)
  | .finish p => { s with done := true }.goto i (.unlock p)
  | .unlock p => { s with holder := none }.goto i (if p then .panicked else .load)
  | .load => s.goto i (.returned s.fnts)
  | .returned _ => s
  | .panicked => s

/-- The steps of a schedule. -/
def FontMem.run (parse : Face → Option H) (s : FontMem H) (sched : List Nat) : FontMem H := sched.foldl (FontMem.step parse) s

/-- font/ttf/ttf.go:289-304 `defaultFonts`: the variables are set when the program starts; `none`: the program does not start
(`mustParseTTF` panics). -/
def defaultFonts (parse : Face → Option H) : Option (TtfFonts H) := do
  let rm ← parse .regular
  let it ← parse .italic
  let bf ← parse .bold
  let bfit ← parse .boldItalic
  some { default := some rm, rm := some rm, it := some it, bf := some bf, bfIt := some bfit }

/-- mtex/render.go:26-31: the fonts `Render` uses, if it is given the pointer `p`. -/
def fontsFor (dflt : TtfFonts H) (p : Option (Nat × TtfFonts H)) : TtfFonts H :=
  match p with
  | none => dflt
  | some (_, f) => f

end Verif
