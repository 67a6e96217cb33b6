import Verif.Lemmas.GrammarFail
import Verif.Props.Grammar
/-!
# C90: what ParseExpr panics with

`Spec/Errors` says, on the lexemes alone, why a source is not a sentence.  The text of a panic beyond what `Panic` records
(the file name, the token found instead of the one expected) is not modelled.
-/

namespace Verif.Props
open Verif Spec
variable {U : Nat → Bool}

/-- **C90.** Every source, whatever its bytes, has exactly one list of lexemes up to the first character that begins none. -/
theorem C90_reads (x : GoString) : ∃ L, ReadsOf U x L ∧ ∀ L', ReadsOf U x L' → L' = L := by
  obtain ⟨L, h⟩ := reads_total (U := U) _ ⟨decode (stripBom x), x.length - (stripBom x).length⟩ (Nat.lt_succ_self _) (decode_ok _)
  exact ⟨L, h, fun L' h' => reads_unique (decode_ok _) h' h⟩

/-- **C90.** ParseExpr panics with `p` exactly if `p` is the reason for which the first wrong item is wrong. -/
theorem C90_panics (x : GoString) (p : Panic) : parseExpr U x = .panic p ↔ ∃ L, ReadsOf U x L ∧ FailIn false .eof L p := by
  have hok : ∀ c ∈ (SS.init x).rest, c.Ok := by rw [init_strip]; exact decode_ok _
  have key : ∀ {L p}, ReadsOf U x L → FailIn false .eof L p → parseExpr U x = .panic p := by
    intro L p h1 h2
    exact parseExpr_of_F (failIn_F h2 (st := .never) (s := SS.init x) rfl hok (by rw [init_strip]; exact h1))
  constructor
  · intro h
    obtain ⟨L, h1, -⟩ := C90_reads (U := U) x
    rcases (parse_or_fail _ L (Nat.lt_succ_self _) (reads_marks h1) false).2.1 .eof with ⟨l, q, L', h2⟩ | ⟨q, h2⟩
    · obtain ⟨s', h3, -⟩ := items_P (U := U) h2 (st := .never) (s := SS.init x) rfl hok (by rw [init_strip]; exact h1)
      have := parseExpr_of_P h3
      rw [h] at this
      cases this
    · have := key h1 h2
      rw [h] at this
      cases this
      exact ⟨L, h1, h2⟩
  · rintro ⟨L, h1, h2⟩
    exact key h1 h2

/-- **C90.** A source is a sentence or there is a reason why it is not, but not both, and there is only one reason. -/
theorem C90_one (x : GoString) (L : List Lexed) (h : ReadsOf U x L) :
    ((∃ l, Items false .eof L l 0 []) ∨ ∃ p, FailIn false .eof L p) ∧
    (∀ l l' q q' L' L'' p, Items false .eof L l q L' → Items false .eof L l' q' L'' → ¬ FailIn false .eof L p ∧ l = l') ∧
    ∀ p p', FailIn false .eof L p → FailIn false .eof L p' → p = p' := by
  have hok : ∀ c ∈ (SS.init x).rest, c.Ok := by rw [init_strip]; exact decode_ok _
  have good : ∀ {l q L'}, Items false .eof L l q L' → parseExpr U x = .ok (.list l) := by
    intro l q L' h2
    obtain ⟨s', h3, -⟩ := items_P (U := U) h2 (st := .never) (s := SS.init x) rfl hok (by rw [init_strip]; exact h)
    exact parseExpr_of_P h3
  have ends : ∀ {m u L l q L'}, Items m u L l q L' → u = .eof → q = 0 ∧ L' = [] := by
    intro m u L l q L' hi
    generalize hn : L.length = n
    induction n using Nat.strongRecOn generalizing L l with
    | _ n ih =>
      intro hu
      subst hu
      cases hi with
      | eof => exact ⟨rfl, rfl⟩
      | close h => cases h
      | item h1 h2 h3 =>
        obtain ⟨D, hD, e⟩ := item1_suffix h2
        refine ih _ ?_ h3 rfl rfl
        rw [← hn, e, List.length_append]
        have := List.length_pos_iff.2 hD
        omega
  refine ⟨?_, fun l l' q q' L' L'' p h1 h2 => ⟨fun h3 => ?_, ?_⟩, fun p p' h1 h2 => ?_⟩
  · rcases (parse_or_fail _ L (Nat.lt_succ_self _) (reads_marks h) false).2.1 .eof with ⟨l, q, L', h2⟩ | h2
    · obtain ⟨rfl, rfl⟩ := ends h2 rfl
      exact .inl ⟨l, h2⟩
    · exact .inr h2
  · have := (C90_panics x p).2 ⟨L, h, h3⟩
    rw [good h1] at this
    cases this
  · have := good h1
    rw [good h2] at this
    cases this
    rfl
  · have := (C90_panics x p).2 ⟨L, h, h1⟩
    rw [(C90_panics x p').2 ⟨L, h, h2⟩] at this
    cases this
    rfl

/-- What the lexemes have to do with the panic. -/
def Blamed (p : Panic) (L : List Lexed) : Prop :=
  match p with
  | .unhandledToken r => ∃ y ∈ L, y.lex = .wrong r
  | .lbraceNotImplemented => ∃ y ∈ L, y.lex = .mark ch!"{"
  | .otherNotImplemented => ∃ y ∈ L, y.lex = .quoted
  | .impossible => (∃ y ∈ L, y.lex = .mark ch!"}") ∨ ∃ y c, L.getLast? = some y ∧ y.lex = .mark c ∧ c ∈ bs!"^_"
  | .unknownMacro t => (∃ y ∈ L, y.lex = .name t) ∧ ¬ Known t
  | .nilMacro => ∃ y ∈ L, y.lex = .name bs!"\\genfrac"
  | .expected r => r = ch!"{" ∧ ∃ y ∈ L, ∃ t, y.lex = .name t ∧ 0 < arity t
  | .other _ => False

theorem blamed_append {p : Panic} {L : List Lexed} (D : List Lexed) (h : Blamed p L) : Blamed p (D ++ L) := by
  have up : ∀ {Q : Lexed → Prop}, (∃ y ∈ L, Q y) → ∃ y ∈ D ++ L, Q y := fun ⟨y, h1, h2⟩ => ⟨y, by simp [h1], h2⟩
  cases p with
  | unhandledToken => exact up h
  | lbraceNotImplemented => exact up h
  | otherNotImplemented => exact up h
  | unknownMacro => exact ⟨up h.1, h.2⟩
  | nilMacro => exact up h
  | expected => exact ⟨h.1, up h.2⟩
  | other => exact h
  | impossible =>
    rcases h with h | ⟨y, c, h1, h2⟩
    · exact .inl (up h)
    · exact .inr ⟨y, c, by rw [List.getLast?_append, h1]; rfl, h2⟩

mutual
theorem fail1_blamed : ∀ {m L p}, Fail1 m L p → Blamed p L ∨ (L = [] ∧ p = .impossible)
  | _, _, _, .eof => .inr ⟨rfl, rfl⟩
  | _, _, _, .wrong => .inl ⟨_, List.mem_cons_self, rfl⟩
  | _, _, _, .quoted => .inl ⟨_, List.mem_cons_self, rfl⟩
  | _, _, _, .group => .inl ⟨_, List.mem_cons_self, rfl⟩
  | _, _, _, .brace => .inl (.inl ⟨_, List.mem_cons_self, rfl⟩)
  | _, _, _, .unknown h _ => .inl ⟨⟨_, List.mem_cons_self, rfl⟩, h⟩
  | _, _, _, .genfrac => .inl ⟨_, List.mem_cons_self, rfl⟩
  | _, _, _, .inMath h => .inl (blamed_append [_] (failIn_blamed h))
  | _, _, _, .inGroup h => .inl (blamed_append [_] (failIn_blamed h))
  | _, _, _, .inScript _ h => .inl (blamed_append [_, _] (failIn_blamed h))
  | _, _, _, .script hc _ h => by
    rcases fail1_blamed h with h | ⟨h1, h2⟩
    · exact .inl (blamed_append [_] h)
    · rw [h1, h2]
      exact .inl (.inr ⟨_, _, rfl, rfl, hc⟩)
  | _, _, _, .inRoot h => .inl (blamed_append [_, _] (failIn_blamed h))
  | _, _, _, .root (o := o) (e := e) (e' := e') h ha => by
    obtain ⟨D, rfl⟩ := items_suffix h
    rcases failArgs_blamed ha with h | h
    · exact .inl (blamed_append (_ :: _ :: D) h)
    · rw [h.1]
      exact .inl ⟨rfl, _, List.mem_cons_self, _, rfl, by decide⟩
  | _, _, _, .args _ _ ha => by
    rcases failArgs_blamed ha with h | h
    · exact .inl (blamed_append [_] h)
    · rw [h.1]
      exact .inl ⟨rfl, _, List.mem_cons_self, _, rfl, h.2⟩
theorem failIn_blamed : ∀ {m u L p}, FailIn m u L p → Blamed p L
  | _, _, _, _, .here _ h => by
    rcases fail1_blamed h with h | ⟨h, _⟩
    · exact h
    · cases h
  | _, _, _, _, .later _ h1 h2 => by
    obtain ⟨D, _, e⟩ := item1_suffix h1
    rw [e]
    exact blamed_append D (failIn_blamed h2)
theorem failArgs_blamed : ∀ {m n L p}, FailArgs m n L p → Blamed p L ∨ (p = .expected ch!"{" ∧ 0 < n)
  | _, _, _, _, .eof => .inr ⟨rfl, by omega⟩
  | _, _, _, _, .wrong => .inl ⟨_, List.mem_cons_self, rfl⟩
  | _, _, _, _, .other _ _ => .inr ⟨rfl, by omega⟩
  | _, _, _, _, .inside h => .inl (blamed_append [_] (failIn_blamed h))
  | _, _, _, _, .later h1 h2 => by
    obtain ⟨D, rfl⟩ := items_suffix h1
    rcases failArgs_blamed h2 with h | h
    · exact .inl (blamed_append (_ :: D) h)
    · exact .inr ⟨h.1, by omega⟩
end

/-- **C90.** What a panic tells about the source: there are no others than these, and each names something the source has. -/
theorem C90_blamed (x : GoString) (p : Panic) (h : parseExpr U x = .panic p) : ∃ L, ReadsOf U x L ∧ Blamed p L := by
  obtain ⟨L, h1, h2⟩ := (C90_panics x p).1 h
  exact ⟨L, h1, failIn_blamed h2⟩

theorem reads_wrong {o : Nat} {cs : List Ch} {L : List Lexed} (h : Reads U o cs L) {y : Lexed} {r : Nat} (hy : y ∈ L) (hr : y.lex = .wrong r) :
    Stuck U r ∧ ∃ c ∈ cs, c.r = r := by
  induction h with
  | done => cases hy
  | stuck _ h2 =>
    rw [List.mem_singleton.1 hy] at hr
    cases hr
    exact ⟨h2, _, by simp, rfl⟩
  | more _ h2 _ ih =>
    rcases List.mem_cons.1 hy with rfl | hy
    · dsimp only at hr
      subst hr
      cases h2
    · obtain ⟨h3, c, h4, h5⟩ := ih hy
      exact ⟨h3, c, by simp [h4], h5⟩

/-- **C90.** A character reported as not handled is in the source, and begins no lexeme. -/
theorem C90_unhandled (x : GoString) (r : Nat) (h : parseExpr U x = .panic (.unhandledToken r)) : Stuck U r ∧ ∃ c ∈ decode (stripBom x), c.r = r := by
  obtain ⟨L, h1, y, hy, hr⟩ := C90_blamed x _ h
  exact reads_wrong h1 hy hr

/-- **C90.** If every character begins a lexeme, the lexemes go up to the end of the source. -/
theorem C90_all (x : GoString) (h : ∀ c ∈ decode (stripBom x), ¬ Stuck U c.r) : ∃ L, LexesOf U x L := by
  obtain ⟨L, h1, -⟩ := C90_reads (U := U) x
  refine ⟨L, ?_⟩
  unfold ReadsOf at h1
  unfold LexesOf
  generalize decode (stripBom x) = cs at h h1 ⊢
  generalize x.length - (stripBom x).length = o at h1 ⊢
  induction h1 with
  | done hw => exact .done hw
  | stuck _ h2 => exact absurd h2 (h _ (by simp))
  | more h1 h2 _ ih => exact .more h1 h2 (ih (fun c hc => h c (by simp [hc])))

/-! ## Non-vacuity -/

example : parseExpr U bs!"$x^" = .panic .impossible := by krfl
example : parseExpr U bs!"a#b" = .panic (.unhandledToken ch!"#") := by krfl
example : parseExpr U bs!"\\frac{1} x" = .panic (.expected ch!"{") := by krfl
/-- The brace that closes nothing comes first. -/
example : parseExpr U bs!"a}\\foo" = .panic .impossible := by krfl
/-- The unknown name comes first; the character that begins no lexeme is not reached. -/
example : parseExpr U bs!"$\\foo#" = .panic (.unknownMacro bs!"\\foo") := by krfl

/-- The reason, on the lexemes alone. -/
example : FailIn false .eof [⟨.mark ch!"$", 0, 1⟩, ⟨.word bs!"x", 1, 2⟩, ⟨.mark ch!"^", 2, 3⟩] .impossible :=
  .here (by simp [Until.mark]) (.inMath (.later (by simp [Until.mark]) .word (.here (by simp [Until.mark])
    (.script (by simp) (by rintro ⟨_, h⟩; cases h) .eof))))

end Verif.Props
