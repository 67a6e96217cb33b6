import Verif.Model.Fonts
/-! # What C84 is stated against -/

namespace Verif.Spec
open Verif
variable {H : Type}

/-- The order in which the files are parsed. -/
def order : List Face := [.regular, .italic, .bold, .boldItalic]

/-- Every file can be parsed. -/
def AllGood (parse : Face → Option H) : Prop := ∀ f, (parse f).isSome = true

/-- The fonts of the four files; the default is the regular one. -/
def loaded (parse : Face → Option H) : TtfFonts H := ⟨parse .regular, parse .regular, parse .italic, parse .bold, parse .boldItalic⟩

/-- Files parsed one after the other, the last one, and only the last one, in vain. -/
def FailedAt (parse : Face → Option H) (parsed : List Face) : Prop :=
  ∃ l f, parsed = l ++ [f] ∧ parse f = none ∧ ∀ g ∈ l, (parse g).isSome = true

/-- A call that is over. -/
def Over : PC H → Prop
  | .returned _ => True
  | .panicked => True
  | _ => False

/-- The memory after `n` steps of an infinite schedule. -/
def after (parse : Face → Option H) (sched : Nat → Nat) : Nat → FontMem H
  | 0 => .start
  | n + 1 => (after parse sched n).step parse (sched n)

/-- Every call that is being made gets its turn again and again. -/
def Fair (parse : Face → Option H) (sched : Nat → Nat) : Prop := ∀ i n, (after parse sched n).pc i ≠ .idle → ∃ m, n ≤ m ∧ sched m = i

end Verif.Spec
