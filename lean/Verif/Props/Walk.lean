import Verif.Lemmas.Walk
import Verif.Props.Parse
/-!
# Properties of `ast.Walk` and `ast.Inspect`: C20–C23

`walk visit v n s` is `ast.Walk(v, n)` started in a state `s` of the visitor's world; the
vocabulary (`dfs`, `Trace`, `Replay`, `lineage`, `opens`, `closings`) is in `Verif/Spec/Walk.lean`.
-/

namespace Verif.Props
open Verif Verif.Spec

/-- A tree with every construct, used for the examples. -/
private def tree : Node := .list [.word 0 bs!"a", .math bs!"$" 1
  [.macro (some (2, bs!"\\sqrt")) [.optArg 7 [.lit 8 bs!"3"] 9, .arg 10 [.sub 11 (.word 12 bs!"x")] 13],
    .sup 14 (.list [])] 18, .sym 19 bs!"+"]

private theorem tree_nonil : Node.nil ∉ allNodes tree := by simp [tree, allNodes, allNodesL]

/-! ## C20 -/

/-- C20: for every visitor that goes on at every node (whatever its state and its changes of
visitor), `Walk` on a tree without nil nodes returns, and the nodes `Visit` is called with are the
depth-first sequence of the tree. -/
theorem C20_order {V S : Type} (visit : Visit V S) (hv : Willing visit) (v : V) (n : Node)
    (hn : Node.nil ∉ allNodes n) (s : S) :
    ∃ s', walk (logged visit) v n (s, []) = .ok (s', dfs n) := by
  simpa using walk_willing hv n v s [] hn

/-- C20, reading the sequence: the non-nil calls are the nodes in pre-order, each once, and
matching every nil call with the last node still open, nodes are closed in post-order, each
once. -/
theorem C20_bracketing (n : Node) (hn : Node.nil ∉ allNodes n) :
    opens (dfs n) = (lineage [] n).map Prod.snd ∧
    closings (fun _ => true) [] (dfs n) = some (postorder n) ∧
    (postorder n).Perm ((lineage [] n).map Prod.snd) := by
  have h := insp_dfs n hn
  have h1 := insp_lineage n _ _ h [] rfl
  have h2 := insp_closings n _ _ h [] []
  have h3 := insp_perm n _ _ h
  have h4 : ((lineage [] n).filter fun q => q.1.all fun _ => true) = lineage [] n := by
    rw [List.filter_eq_self]; simp
  rw [h4] at h1
  refine ⟨h1, by simpa [closings] using h2, ?_⟩
  rw [h1] at h3
  rwa [List.filter_eq_self.2 (by simp)] at h3

/-- The hypotheses are met, and the sequence is the expected one (TestWalk in walk_test.go). -/
example : Willing (V := Unit) (S := Nat) (fun v _ s => .ok (some v, s + 1)) := fun v _ s => ⟨v, s + 1, rfl⟩
example : ∃ s', walk (logged (V := Unit) (S := Nat) (fun v _ s => .ok (some v, s + 1))) () tree (0, []) =
    .ok (s', dfs tree) := C20_order _ (fun v _ s => ⟨v, s + 1, rfl⟩) () tree tree_nonil 0
example : dfs (.macro (some (0, bs!"\\sqrt")) [.optArg 5 [.word 6 bs!"n"] 7, .arg 8 [.lit 9 bs!"2"] 10]) =
    [.macro (some (0, bs!"\\sqrt")) [.optArg 5 [.word 6 bs!"n"] 7, .arg 8 [.lit 9 bs!"2"] 10],
      .ident 0 bs!"\\sqrt", .nil, .optArg 5 [.word 6 bs!"n"] 7, .word 6 bs!"n", .nil, .nil,
      .arg 8 [.lit 9 bs!"2"] 10, .lit 9 bs!"2", .nil, .nil, .nil] := by simp [dfs, dfsL]
example : (dfs tree).length = 26 := by decide

/-! ## C21 -/

/-- C21: `Walk` returns with the visitor's world in state `s'` if and only if some sequence of
calls that obeys the documentation of `Visitor` and `Walk` (`Trace`: children walked with the
visitor returned for their parent, no closing call for a declined node) has exactly the answers
and the effect of the visitor (`Replay`).  No assumption on the visitor. -/
theorem C21_calls {V S : Type} (visit : Visit V S) (v : V) (n : Node) (s s' : S) :
    walk visit v n s = .ok s' ↔ ∃ log, Trace v n log ∧ Replay visit log s s' := walk_trace n v s s'

/-- C21: that sequence of calls is unique. -/
theorem C21_unique {V S : Type} (visit : Visit V S) (v : V) (n : Node) (a b : List (Call V)) (s s1 s2 : S)
    (ha : Trace v n a) (hb : Trace v n b) (ra : Replay visit a s s1) (rb : Replay visit b s s2) :
    a = b ∧ s1 = s2 := trace_unique n v a b s s1 s2 ha hb ra rb

/-- C21: if the visitor declines the root there is exactly one call. -/
theorem C21_decline {V S : Type} (visit : Visit V S) (v : V) (n : Node) (s s' : S)
    (h : visit v n s = .ok (none, s')) : walk visit v n s = .ok s' := by
  rw [walk_eq, h]; rfl

/-- C21: the children of a node are walked in order with the visitor returned for the node. -/
theorem C21_children {V S : Type} (visit : Visit V S) (v w : V) (n : Node) (hn : n ≠ .nil) (s s1 : S)
    (h : visit v n s = .ok (some w, s1)) :
    walk visit v n s = (kids n).foldl (fun r k => r >>= fun t => walk visit w k t) (.ok s1) >>=
      fun t => visit w .nil t >>= fun r => .ok r.2 := by
  have : ∀ (l : List Node) (r : Res S), r >>= (fun t => walkList visit w l t) =
      l.foldl (fun r k => r >>= fun t => walk visit w k t) r := by
    intro l
    induction l with
    | nil => intro r; cases r <;> simp [walkList]
    | cons k l ih =>
      intro r
      rw [List.foldl_cons, ← ih]
      cases r <;> simp [walkList]
  rw [walk_eq, h, ← this]
  simp [notNil hn]

/-- A visitor that counts its calls, hands out numbered visitors and declines arguments: the
calls, with the visitor used for each. -/
example : walk (V := Nat) (S := List (Nat × Node)) (fun v n s => .ok (match n with | .arg .. => none | _ => some (v + 1),
      s ++ [(v, n)])) 0 (.macro (some (0, bs!"\\a")) [.arg 2 [.word 3 bs!"x"] 4, .optArg 5 [] 6]) [] =
    .ok [(0, .macro (some (0, bs!"\\a")) [.arg 2 [.word 3 bs!"x"] 4, .optArg 5 [] 6]),
      (1, .ident 0 bs!"\\a"), (2, .nil), (1, .arg 2 [.word 3 bs!"x"] 4), (1, .optArg 5 [] 6), (2, .nil),
      (1, .nil)] := by simp [walk, walkList, walkIdent]

/-! ## C22 -/

/-- C22: `Inspect(n, f)` calls `f` on exactly those nodes all of whose proper ancestors `f`
accepted, in depth-first order and once each, and, matching each `f(nil)` with the last accepted
node still open, every accepted node is closed exactly once. -/
theorem C22_inspect (f : Node → Bool) (n : Node) (hn : Node.nil ∉ allNodes n) :
    ∃ calls, inspect (fun k log => .ok (f k, log ++ [k])) n [] = .ok calls ∧
      opens calls = ((lineage [] n).filter fun q => q.1.all f).map Prod.snd ∧
      ∃ closed, closings f [] calls = some closed ∧ closed.Perm ((opens calls).filter f) := by
  obtain ⟨calls, cl, h1, h2⟩ := insp_walk f n hn
  refine ⟨calls, h2 [], insp_lineage n _ _ h1 [] rfl, cl, ?_, insp_perm n _ _ h1⟩
  simpa [closings] using insp_closings n _ _ h1 [] []

/-- Declining math expressions hides their content. -/
example : inspect (fun k log => .ok ((match k with | .math .. => false | _ => true), log ++ [k])) tree [] =
    .ok [tree, .word 0 bs!"a", .nil, .math bs!"$" 1
      [.macro (some (2, bs!"\\sqrt")) [.optArg 7 [.lit 8 bs!"3"] 9, .arg 10 [.sub 11 (.word 12 bs!"x")] 13],
        .sup 14 (.list [])] 18, .sym 19 bs!"+", .nil, .nil] := by
  simp [tree, inspect, inspectorVisit, walk, walkList]
example : Node.nil ∉ allNodes tree := tree_nonil

/-! ## C23 -/

/-- C23: with a visitor that goes on everywhere, `Walk` panics if and only if the tree has a nil
node somewhere (and otherwise returns).  The documentation says that only non-nil children are
walked. -/
theorem C23_nil_children {V S : Type} (visit : Visit V S) (hv : Willing visit) (v : V) (n : Node) (s : S) :
    ((∃ p, walk visit v n s = .panic p) ↔ Node.nil ∈ allNodes n) ∧
    ((∃ s', walk visit v n s = .ok s') ↔ Node.nil ∉ allNodes n) := by
  by_cases h : Node.nil ∈ allNodes n
  · have := walk_willing_panic hv n v s h
    simp [this, h]
  · obtain ⟨s', hs⟩ := walk_willing_ok hv n v s h
    simp [hs, h]

/-- C23, on results of `ParseExpr`: the offending nodes are exactly scripts without operand. -/
theorem C23_parse_results {V S : Type} (visit : Visit V S) (hv : Willing visit) (v : V) (s : S)
    (U : Nat → Bool) (x : GoString) (root : Node) (h : parseExpr U x = .ok root) :
    (∃ p, walk visit v root s = .panic p) ↔
      ∃ p, Node.sub p .nil ∈ allNodes root ∨ Node.sup p .nil ∈ allNodes root := by
  rw [(C23_nil_children visit hv v root s).1]
  obtain ⟨⟨l, rfl⟩, h2⟩ := C02_list_without_nil U x root h
  constructor
  · intro hn
    have key : ∀ n : Node, (∀ k ∈ allNodes n, Node.nil ∉ elements k) → n ≠ .nil → Node.nil ∈ allNodes n →
        ∃ p, Node.sub p .nil ∈ allNodes n ∨ Node.sup p .nil ∈ allNodes n := by
      intro n
      induction n using kids_induction with
      | step n ih =>
        intro he hnn hm
        obtain ⟨k, hk, hkn⟩ := (nil_mem_allNodes.1 hm).resolve_left hnn
        have hsub : ∀ j, (∃ p, (.ident p j : Node) = k) ∨ (∀ i ∈ allNodes k, i ∈ allNodes n) := by
          intro j
          cases n with
          | «macro» name args =>
            rcases name with _ | ⟨p, y⟩
            · exact .inr fun i hi => by simp [allNodes, mem_allNodesL]; exact .inr ⟨k, hk, hi⟩
            · simp only [kids, List.mem_cons] at hk
              rcases hk with rfl | hk
              · simp [allNodes] at hkn
              · exact .inr fun i hi => by simp [allNodes, mem_allNodesL]; exact .inr ⟨k, hk, hi⟩
          | sub p m => simp only [kids, List.mem_singleton] at hk; subst hk; exact .inr fun i hi => by simp [allNodes, hi]
          | sup p m => simp only [kids, List.mem_singleton] at hk; subst hk; exact .inr fun i hi => by simp [allNodes, hi]
          | list l => exact .inr fun i hi => by simp [allNodes, mem_allNodesL]; exact .inr ⟨k, hk, hi⟩
          | arg a l b => exact .inr fun i hi => by simp [allNodes, mem_allNodesL]; exact .inr ⟨k, hk, hi⟩
          | optArg a l b => exact .inr fun i hi => by simp [allNodes, mem_allNodesL]; exact .inr ⟨k, hk, hi⟩
          | math d a l b => exact .inr fun i hi => by simp [allNodes, mem_allNodesL]; exact .inr ⟨k, hk, hi⟩
          | nil | ident | word | lit | sym => simp [kids] at hk
        have hsub' : ∀ i ∈ allNodes k, i ∈ allNodes n := by
          rcases hsub [] with ⟨p, rfl⟩ | h
          · simp [allNodes] at hkn
          · exact h
        by_cases hk0 : k = .nil
        · subst hk0
          have hself : n ∈ allNodes n := by cases n <;> simp [allNodes]
          have := he n hself
          cases n with
          | sub p m => simp only [kids, List.mem_singleton] at hk; subst hk; exact ⟨p, .inl hself⟩
          | sup p m => simp only [kids, List.mem_singleton] at hk; subst hk; exact ⟨p, .inr hself⟩
          | «macro» name args =>
            rcases name with _ | ⟨p, y⟩
            · exact absurd hk (by simpa [elements, kids] using this)
            · simp only [kids, List.mem_cons, reduceCtorEq, false_or] at hk
              exact absurd hk (by simpa [elements] using this)
          | list l => exact absurd hk (by simpa [elements, kids] using this)
          | arg a l b => exact absurd hk (by simpa [elements, kids] using this)
          | optArg a l b => exact absurd hk (by simpa [elements, kids] using this)
          | math d a l b => exact absurd hk (by simpa [elements, kids] using this)
          | nil | ident | word | lit | sym => simp [kids] at hk
        · obtain ⟨p, hp⟩ := ih k hk (fun i hi => he i (hsub' i hi)) hk0 hkn
          exact ⟨p, hp.imp (hsub' _) (hsub' _)⟩
    exact key _ h2 (by simp) hn
  · rintro ⟨p, hp⟩
    have tr : ∀ (n m : Node), m ∈ allNodes n → Node.nil ∈ allNodes m → Node.nil ∈ allNodes n := by
      intro n
      induction n using kids_induction with
      | step n ih =>
        intro m hm hn
        by_cases e : m = n
        · subst e; exact hn
        · rw [nil_mem_allNodes]
          have hkey : ∃ k ∈ kids n, m ∈ allNodes k := by
            cases n with
            | «macro» name args =>
              simp only [allNodes, List.mem_cons, e, false_or, mem_allNodesL] at hm
              obtain ⟨k, hk, hm⟩ := hm
              exact ⟨k, by rcases name with _ | ⟨p, y⟩ <;> simp [kids, hk], hm⟩
            | sub p j => simp only [allNodes, List.mem_cons, e, false_or] at hm; exact ⟨j, by simp [kids], hm⟩
            | sup p j => simp only [allNodes, List.mem_cons, e, false_or] at hm; exact ⟨j, by simp [kids], hm⟩
            | list l => simpa only [kids, allNodes, List.mem_cons, e, false_or, mem_allNodesL] using hm
            | arg a l b => simpa only [kids, allNodes, List.mem_cons, e, false_or, mem_allNodesL] using hm
            | optArg a l b => simpa only [kids, allNodes, List.mem_cons, e, false_or, mem_allNodesL] using hm
            | math d a l b => simpa only [kids, allNodes, List.mem_cons, e, false_or, mem_allNodesL] using hm
            | nil | ident | word | lit | sym => simp [allNodes, e] at hm
          obtain ⟨k, hk, hm⟩ := hkey
          exact .inr ⟨k, hk, ih k hk m hm hn⟩
    rcases hp with hp | hp
    · exact tr _ _ hp (by simp [allNodes])
    · exact tr _ _ hp (by simp [allNodes])

/-- Such results exist. -/
example (U : Nat → Bool) : parseExpr U bs!"a^%b" = .ok (.list [.word 0 bs!"a", .sup 1 .nil]) := by krfl
example : (.sup 1 .nil : Node) ∈ allNodes (.list [.word 0 bs!"a", .sup 1 .nil]) := by simp [allNodes, allNodesL]

end Verif.Props
