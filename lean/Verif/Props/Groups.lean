import Verif.Props.Depends
/-! # C60 for sources -/

namespace Verif.Props
open Verif Verif.Spec GoFloat
variable {F : Type} [GoFloat F]

theorem dotsApart_some {x : GoString} {l l' : List Node} (h : DotsApart x l) (hs : ∀ p, (.sym p bs!"." ∈ l' → .sym p bs!"." ∈ l) ∧
    ∀ args, .macro (some (p, bs!".")) args ∈ l' → .macro (some (p, bs!".")) args ∈ l) : DotsApart x l' := by
  intro k hk p hp
  rcases hp with rfl | ⟨args, rfl⟩
  · exact h _ ((hs p).1 hk) p (.inl rfl)
  · exact h _ ((hs p).2 args hk) p (.inr ⟨args, rfl⟩)

theorem collect_item (be : Backend F) (num : GoString → Option F) (x : GoString) (st : TState F) (n n' : Node) (a b : List Node)
    (h : ∀ m, collect be num x st m n = collect be num x st m n') (m : Bool) : collect be num x st m (.list (a ++ n :: b)) = collect be num x st m (.list (a ++ n' :: b)) := by
  rw [C62_items, C62_items]
  simp only [List.foldr_append, List.foldr_cons, h]

/-- **C60** For sources: if the tree of `x` has a braced group directly inside math, and the tree of `y` is the same without the group (but for positions; the
operators right after an opening bracket and the role of the first full stop being the same, see C91), then mtex.Parse makes the same box of both, or panics for
both, whatever is in the group. -/
theorem C60_source (U : Nat → Bool) (be : Backend F) (num : GoString → Option F) (x y : GoString) (k : GoString) (p q : Nat) (pre a g b post : List Node) (m : Node)
    (hx : parseExpr U x = .ok (.list (pre ++ .math k p (a ++ .list g :: b) q :: post))) (hy : parseExpr U y = .ok m)
    (h : DrawnAlike x y (.list (pre ++ .math k p (a ++ b) q :: post)) m) (size dpi : F) : mtexParse U be num x size dpi = mtexParse U be num y size dpi := by
  have hd : DotsApart x (allNodes (.list (pre ++ .math k p (a ++ b) q :: post))) := by
    refine dotsApart_some (dotsApart_parse hx) fun p => ⟨?_, ?_⟩
    · simp only [allNodes, allNodesL_append, allNodesL, List.mem_cons, List.mem_append, reduceCtorEq, false_or]
      tauto
    · intro args
      simp only [allNodes, allNodesL_append, allNodesL, List.mem_cons, List.mem_append, reduceCtorEq, false_or]
      tauto
  have ha : Alike x y (.list (pre ++ .math k p (a ++ b) q :: post)) m := by
    refine alike_of _ m h.same (h.tight.imp fun a b hab => bool_of_iff ?_) (fun p t hk hd => bool_of_iff ?_) hd (dotsApart_parse hy)
    · unfold tightB
      rw [tight_iff, tight_iff]
      exact hab
    · rw [dotInNumber_iff, dotInNumber_iff]
      exact h.dots ⟨p, t, hk, hd⟩
  unfold mtexParse
  rw [hx, hy]
  simp only [Res.ok_bind]
  rw [collect_item be num x (initState size dpi) (.math k p (a ++ .list g :: b) q) (.math k p (a ++ b) q) pre post (fun m => C60_dropped be num x _ m k p q a g b),
    collect_alike be num _ _ ha]

/-- **C60** `$x{+y}=1$` is drawn as `$x=1$` is. -/
example (be : Backend F) (num : GoString → Option F) (size dpi : F) :
    mtexParse exU be num bs!"$x{+y}=1$" size dpi = mtexParse exU be num bs!"$x=1$" size dpi := by
  refine C60_source exU be num _ _ bs!"$" 0 8 [] [.word 1 bs!"x"] [.sym 3 bs!"+", .word 4 bs!"y"] [.sym 6 bs!"=", .lit 7 bs!"1"] [] (.list [.math bs!"$" 0 [.word 1 bs!"x", .sym 2 bs!"=", .lit 3 bs!"1"] 4])
    (by krfl) (by krfl) ⟨rfl, ?_, ?_⟩ size dpi
  · simp only [List.nil_append, leaves, leavesL, List.cons_append, List.append_nil]
    refine .cons ?_ (.cons ?_ (.cons ?_ .nil)) <;> (rw [← tight_iff, ← tight_iff]; decide)
  · rintro ⟨p, t, h, hd⟩
    simp only [allNodes, allNodesL, List.mem_cons, List.mem_append, List.cons_append, List.nil_append, List.append_nil, reduceCtorEq, Node.lit.injEq, false_or, List.not_mem_nil, or_false] at h
    obtain ⟨rfl, rfl⟩ := h
    exact absurd hd (by decide)

end Verif.Props
