import Verif.Lemmas.Edit
import Verif.Lemmas.RunWalk
import Verif.Props.Grammar
/-! # No source has the sign of a radical as a symbol -/

namespace Verif
open Spec

/-- The lexeme is not the sign of a radical. -/
def PlainLex (x : Lexed) : Prop := x.lex ≠ .name radicalSign ∧ x.lex ≠ .blank radicalSign

theorem plain_one {n : Node} (h : allNodes n = [n]) (hn : PlainNode n) : Plain n := by
  intro k hk
  rw [h, List.mem_singleton] at hk
  subst hk
  exact hn

theorem plain_cons {n : Node} {l : List Node} (h : allNodes n = n :: allNodesL l) (hn : PlainNode n) (hl : PlainL l) : Plain n := by
  intro k hk
  rw [h, List.mem_cons] at hk
  rcases hk with rfl | hk
  · exact hn
  · exact hl k hk

theorem grammar_plain : (∀ m L n L1, Item1 m L n L1 → (∀ x ∈ L, PlainLex x) → Plain n) ∧
    (∀ m u L l p L1, Items m u L l p L1 → (∀ x ∈ L, PlainLex x) → PlainL l) ∧
    ∀ m i L l L1, Args m i L l L1 → (∀ x ∈ L, PlainLex x) → PlainL l := by
  refine grammar_all ?_ ?_ ?_ ?_ ?_ ?_ ?_ ?_ ?_ ?_ ?_ ?_ ?_ ?_ ?_ ?_ ?_ ?_ ?_
  · intro m t o e L _; exact plain_one rfl trivial
  · intro m t o e L _; exact plain_one rfl trivial
  · intro m o e L _; exact plain_one rfl trivial
  · intro t o e L h
    refine plain_one rfl fun ht => ?_
    subst ht
    exact (h _ List.mem_cons_self).2 rfl
  · intro t o e L _; exact plain_one rfl trivial
  · intro m c o e L _ _
    refine plain_one rfl fun ht => ?_
    have := congrArg List.length ht
    simp [radicalSign] at this
  · intro m o e L l p L' _ ih h
    exact plain_cons (by rw [allNodes]) trivial (ih fun x hx => h x (by simp [hx]))
  · intro o e L l p L' _ ih h
    exact plain_cons (by rw [allNodes]) trivial (ih fun x hx => h x (by simp [hx]))
  · intro m o e e' L l p L' _ ih h k hk
    have := ih fun x hx => h x (by simp [hx])
    simp only [allNodes, List.mem_cons] at hk
    rcases hk with rfl | rfl | hk
    · trivial
    · trivial
    · exact this k hk
  · intro m o e L n L' _ ih h k hk
    have := ih fun x hx => h x (by simp [hx])
    simp only [allNodes, List.mem_cons] at hk
    rcases hk with rfl | hk
    · trivial
    · exact this k hk
  · intro m o e e' L l p L' _ ih h k hk
    have := ih fun x hx => h x (by simp [hx])
    simp only [allNodes, List.mem_cons] at hk
    rcases hk with rfl | rfl | hk
    · trivial
    · trivial
    · exact this k hk
  · intro m o e L n L' _ ih h k hk
    have := ih fun x hx => h x (by simp [hx])
    simp only [allNodes, List.mem_cons] at hk
    rcases hk with rfl | hk
    · trivial
    · exact this k hk
  · intro m o e e' L l p L1 args L' h1 _ ih1 ih2 h k hk
    obtain ⟨D, rfl⟩ := items_suffix h1
    have i1 := ih1 fun x hx => h x (by simp only [List.mem_cons]; exact .inr (.inr hx))
    have i2 := ih2 fun x hx => h x (by simp [hx])
    simp only [allNodes, allNodesL, List.mem_cons, List.mem_append] at hk
    rcases hk with rfl | (rfl | hk) | hk
    · show bs!"\\sqrt" ≠ radicalSign; decide
    · trivial
    · exact i1 k hk
    · exact i2 k hk
  · intro m t o e L args L' _ _ _ ih h
    refine plain_cons (by rw [allNodes]) ?_ (ih fun x hx => h x (by simp [hx]))
    intro ht
    subst ht
    exact (h _ List.mem_cons_self).1 rfl
  · intro m u _ k hk; cases hk
  · intro m u k o e L _ _ k hk; cases hk
  · intro m u x L n L1 l p L' _ h1 _ ih1 ih2 h k hk
    obtain ⟨D, -, e⟩ := item1_suffix h1
    have i1 := ih1 h
    have i2 := ih2 fun x hx => h x (by rw [e]; simp [hx])
    rcases keep_cases n l with ⟨_, e'⟩ | ⟨_, e'⟩ <;> rw [e'] at hk
    · exact i2 k hk
    · rw [allNodesL, List.mem_append] at hk
      exact hk.elim (i1 k) (i2 k)
  · intro m L _ k hk; cases hk
  · intro m n o e L l p L1 args L' h1 _ ih1 ih2 h k hk
    obtain ⟨D, rfl⟩ := items_suffix h1
    have i1 := ih1 fun x hx => h x (List.mem_cons_of_mem _ hx)
    have i2 := ih2 fun x hx => h x (by simp [hx])
    simp only [allNodes, allNodesL, List.mem_cons, List.mem_append] at hk
    rcases hk with (rfl | hk) | hk
    · trivial
    · exact i1 k hk
    · exact i2 k hk

theorem first_byte {c : Ch} (h : c.Ok) {a : List Ch} {b : Nat} {t : GoString} (e : bytesOf (c :: a) = b :: t) (hb : b < 128) : c.r = b := by
  rcases Nat.lt_or_ge c.r 128 with hr | hr
  · have := h.1.2 hr
    simp only [bytesOf, List.flatMap_cons, this, List.cons_append, List.cons.injEq] at e
    exact e.1
  · have hne : c.b ≠ [] := h.1.1
    obtain ⟨b', r', e'⟩ := List.exists_cons_of_ne_nil hne
    have h2 := h.2 hr b' (by rw [e']; rfl)
    simp only [bytesOf, List.flatMap_cons, e', List.cons_append, List.cons.injEq] at e
    omega

theorem lexes_plain {U : Nat → Bool} {o : Nat} {cs : List Ch} {L : List Lexed} (h : Lexes U o cs L) : (∀ c ∈ cs, c.Ok) → ∀ x ∈ L, PlainLex x := by
  induction h with
  | done _ => simp
  | @more o w a k rest L hw ha _ ih =>
    intro hok x hx
    rcases List.mem_cons.1 hx with rfl | hx
    swap
    · exact ih (fun c hc => hok c (by simp [hc])) x hx
    have ha0 : ∀ c ∈ a, c.Ok := fun c hc => hok c (by simp [hc])
    refine ⟨?_, ?_⟩
    · intro hk
      dsimp only at hk
      subst hk
      generalize hk : Lex.name radicalSign = k at ha
      cases ha <;> simp at hk
      rename_i b0 w' a' _ _ _ _ hn
      have hk' : bytesOf a' = bs!"__sqrt__" := by
        simp only [radicalSign, List.cons.injEq, true_and] at hk; exact hk.symm
      have ha' : ∀ c ∈ a', c.Ok := fun c hc => ha0 c (by simp [hc])
      cases a' with
      | nil => simp [bytesOf] at hk'
      | cons c a' =>
        have hc := first_byte (ha' c List.mem_cons_self) hk' (by decide)
        cases hn with
        | word h _ => rw [hc] at h; simp [isLetter] at h
        | number h =>
          rcases number_head h with h | ⟨h, -⟩
          · rw [hc] at h; revert h; decide
          · rw [hc] at h; revert h; decide
        | quoted h _ => rw [hc] at h; revert h; decide
        | char =>
          have h := (ha' c List.mem_cons_self).1.2 (by rw [hc]; decide)
          simp [bytesOf, h] at hk'
    · intro hk
      dsimp only at hk
      subst hk
      generalize hk : Lex.blank radicalSign = k at ha
      cases ha <;> simp [radicalSign] at hk

/-- What ParseExpr returns has no symbol that is the sign of a radical. -/
theorem parse_plain {U : Nat → Bool} {x : GoString} {n : Node} (h : parseExpr U x = .ok n) : Plain n := by
  obtain ⟨L, l, h1, h2, rfl⟩ := (Props.C83_grammar x n).1 h
  have h3 := lexes_plain h1 (decode_ok _)
  exact plain_cons (by rw [allNodes]) trivial (grammar_plain.2.1 _ _ _ _ _ _ h2 h3)

end Verif
