import Verif.Spec.Walk
/-! # Lemmas about `walk` -/

namespace Verif
open Spec

section
variable {V S : Type} {visit : Visit V S}

theorem replay_append {a b : List (Call V)} {s s' : S} :
    Replay visit (a ++ b) s s' ↔ ∃ s1, Replay visit a s s1 ∧ Replay visit b s1 s' := by
  induction a generalizing s with
  | nil =>
    constructor
    · intro h; exact ⟨s, .nil, h⟩
    · rintro ⟨s1, h1, h2⟩; cases h1; exact h2
  | cons c a ih =>
    constructor
    · intro h
      cases h with
      | cons h1 h2 =>
        obtain ⟨s2, h3, h4⟩ := ih.1 h2
        exact ⟨s2, .cons h1 h3, h4⟩
    · rintro ⟨s1, h1, h2⟩
      cases h1 with
      | cons h3 h4 => exact .cons h3 (ih.2 ⟨_, h4, h2⟩)

theorem replay_single {c : Call V} {s s' : S} :
    Replay visit [c] s s' ↔ visit c.visitor c.node s = .ok (c.answer, s') := by
  constructor
  · intro h
    cases h with
    | cons h1 h2 => cases h2; exact h1
  · intro h; exact .cons h .nil

/-- `Walk`, uniformly over the node types: visit, walk the children, close. -/
theorem walk_eq (v : V) (n : Node) (s : S) : walk visit v n s =
    visit v n s >>= fun r =>
      match r with
      | (none, s1) => .ok s1
      | (some w, s1) =>
        (if n.isNil then .panic (.other "ast.Walk: unknown ast node") else walkList visit w (kids n) s1) >>=
          fun s2 => visit w .nil s2 >>= fun r2 => .ok r2.2 := by
  have single : ∀ (w : V) (k : Node) (s : S), walkList visit w [k] s = walk visit w k s := by
    intro w k s
    rw [walkList]
    cases walk visit w k s <;> simp [walkList]
  have hid : ∀ (w : V) (p : Nat) (x : GoString) (s : S),
      walk visit w (.ident p x) s = walkIdent visit w p x s := by
    intro w p x s
    rw [walk, walkIdent]
    simp
  cases n with
  | «macro» name args =>
    cases name with
    | none => rw [walk]; rfl
    | some q =>
      obtain ⟨p, x⟩ := q
      rw [walk]
      congr 1; funext r
      rcases r with ⟨_ | w, s1⟩
      · rfl
      · simp only [kids, Node.isNil, Bool.false_eq_true, if_false, walkList, hid]
  | sub p k =>
    rw [walk]
    congr 1; funext r
    rcases r with ⟨_ | w, s1⟩
    · rfl
    · simp only [kids, Node.isNil, Bool.false_eq_true, if_false, single]
  | sup p k =>
    rw [walk]
    congr 1; funext r
    rcases r with ⟨_ | w, s1⟩
    · rfl
    · simp only [kids, Node.isNil, Bool.false_eq_true, if_false, single]
  | nil => rw [walk]; rfl
  | list l => rw [walk]; rfl
  | arg a l b => rw [walk]; rfl
  | optArg a l b => rw [walk]; rfl
  | math d a l b => rw [walk]; rfl
  | ident p t => rw [walk]; simp only [kids, walkList]; rfl
  | word p t => rw [walk]; simp only [kids, walkList]; rfl
  | lit p t => rw [walk]; simp only [kids, walkList]; rfl
  | sym p t => rw [walk]; simp only [kids, walkList]; rfl

mutual
/-- A size that strictly decreases from a node to its children. -/
def nsize : Node → Nat
  | .nil => 1
  | .list l => 1 + nsizeL l
  | .macro _ args => 2 + nsizeL args
  | .arg _ l _ => 1 + nsizeL l
  | .optArg _ l _ => 1 + nsizeL l
  | .ident _ _ => 1
  | .math _ _ l _ => 1 + nsizeL l
  | .word _ _ => 1
  | .lit _ _ => 1
  | .sym _ _ => 1
  | .sub _ n => 1 + nsize n
  | .sup _ n => 1 + nsize n
def nsizeL : List Node → Nat
  | [] => 0
  | n :: l => nsize n + nsizeL l
end

theorem nsize_mem {k : Node} : ∀ {l : List Node}, k ∈ l → nsize k ≤ nsizeL l
  | n :: l, h => by
    rcases List.mem_cons.1 h with rfl | h
    · simp only [nsizeL]; omega
    · have := nsize_mem h
      simp only [nsizeL]; omega

theorem kids_sz {n k : Node} (h : k ∈ kids n) : nsize k < nsize n := by
  cases n with
  | «macro» name args =>
    cases name with
    | none => simp only [kids] at h; have := nsize_mem h; simp only [nsize]; omega
    | some q =>
      simp only [kids, List.mem_cons] at h
      rcases h with rfl | h
      · simp only [nsize]; omega
      · have := nsize_mem h; simp only [nsize]; omega
  | sub p m => simp only [kids, List.mem_singleton] at h; subst h; simp only [nsize]; omega
  | sup p m => simp only [kids, List.mem_singleton] at h; subst h; simp only [nsize]; omega
  | list l => simp only [kids] at h; have := nsize_mem h; simp only [nsize]; omega
  | arg a l b => simp only [kids] at h; have := nsize_mem h; simp only [nsize]; omega
  | optArg a l b => simp only [kids] at h; have := nsize_mem h; simp only [nsize]; omega
  | math d a l b => simp only [kids] at h; have := nsize_mem h; simp only [nsize]; omega
  | nil | ident | word | lit | sym => simp [kids] at h

/-- Induction over a node by its children. -/
theorem kids_induction {p : Node → Prop} (step : ∀ n, (∀ k ∈ kids n, p k) → p n) (n : Node) : p n := by
  induction h : nsize n using Nat.strongRecOn generalizing n with
  | _ m ih => exact step n fun k hk => ih (nsize k) (by have := kids_sz hk; omega) k rfl

theorem walkList_trace {l : List Node}
    (ih : ∀ n ∈ l, ∀ (v : V) (s s' : S), walk visit v n s = .ok s' ↔
      ∃ log, Trace v n log ∧ Replay visit log s s') (v : V) (s s' : S) :
    walkList visit v l s = .ok s' ↔ ∃ log, TraceL v l log ∧ Replay visit log s s' := by
  induction l generalizing s with
  | nil =>
    simp only [walkList, Res.ok.injEq]
    constructor
    · rintro rfl; exact ⟨[], .nil, .nil⟩
    · rintro ⟨log, h1, h2⟩; cases h1; cases h2; rfl
  | cons n l ihl =>
    rw [walkList, Res.bind_eq_ok]
    constructor
    · rintro ⟨s1, h1, h2⟩
      obtain ⟨a, h3, h4⟩ := (ih n (by simp) v s s1).1 h1
      obtain ⟨b, h5, h6⟩ := (ihl (fun k hk => ih k (by simp [hk])) s1).1 h2
      exact ⟨a ++ b, .cons h3 h5, replay_append.2 ⟨s1, h4, h6⟩⟩
    · rintro ⟨log, h1, h2⟩
      cases h1 with
      | cons h3 h5 =>
        obtain ⟨s1, h4, h6⟩ := replay_append.1 h2
        exact ⟨s1, (ih n (by simp) v s s1).2 ⟨_, h3, h4⟩,
          (ihl (fun k hk => ih k (by simp [hk])) s1).2 ⟨_, h5, h6⟩⟩

theorem walk_trace (n : Node) : ∀ (v : V) (s s' : S), walk visit v n s = .ok s' ↔
    ∃ log, Trace v n log ∧ Replay visit log s s' := by
  induction n using kids_induction with
  | step n ih =>
    intro v s s'
    rw [walk_eq, Res.bind_eq_ok]
    constructor
    · rintro ⟨⟨w, s1⟩, h1, h2⟩
      cases w with
      | none =>
        simp only [Res.ok.injEq] at h2
        subst h2
        exact ⟨_, .declined, replay_single.2 h1⟩
      | some w =>
        simp only [Res.bind_eq_ok] at h2
        obtain ⟨s2, h2, ⟨r, s3⟩, h3, h4⟩ := h2
        simp only [Res.ok.injEq] at h4
        subst h4
        split at h2
        · simp at h2
        · rename_i hn
          obtain ⟨log, h5, h6⟩ := (walkList_trace ih w s1 s2).1 h2
          exact ⟨_, .accepted (by rintro rfl; simp [Node.isNil] at hn) h5,
            .cons h1 (replay_append.2 ⟨s2, h6, replay_single.2 h3⟩)⟩
    · rintro ⟨log, h1, h2⟩
      cases h1 with
      | declined => exact ⟨(none, s'), replay_single.1 h2, rfl⟩
      | @accepted _ _ w log r hn h5 =>
        cases h2 with
        | @cons _ _ _ s1 _ h1 h3 =>
          obtain ⟨s2, h6, h7⟩ := replay_append.1 h3
          refine ⟨(some w, s1), h1, ?_⟩
          simp only [Res.bind_eq_ok]
          refine ⟨s2, ?_, (r, s'), replay_single.1 h7, rfl⟩
          have : n.isNil = false := by cases n <;> simp_all [Node.isNil]
          simp only [this, Bool.false_eq_true, if_false]
          exact (walkList_trace ih w s1 s2).2 ⟨log, h5, h6⟩

end

/-! ## Uniform equations for the specification functions -/

theorem notNil {n : Node} (h : n ≠ .nil) : n.isNil = false := by cases n <;> simp_all [Node.isNil]

theorem dfs_eq {n : Node} (h : n ≠ .nil) : dfs n = n :: (dfsL (kids n) ++ [.nil]) := by
  cases n with
  | «macro» name args =>
    rcases name with _ | ⟨p, x⟩ <;> simp [dfs, kids, dfsL]
  | nil => exact absurd rfl h
  | _ => simp [dfs, kids, dfsL]

theorem lineage_eq {n : Node} (up : List Node) : lineage up n = (up, n) :: lineageL (n :: up) (kids n) := by
  cases n with
  | «macro» name args =>
    rcases name with _ | ⟨p, x⟩ <;> simp [lineage, kids, lineageL]
  | _ => simp [lineage, kids, lineageL]

theorem postorder_eq {n : Node} : postorder n = postorderL (kids n) ++ [n] := by
  cases n with
  | «macro» name args =>
    rcases name with _ | ⟨p, x⟩ <;> simp [postorder, kids, postorderL]
  | _ => simp [postorder, kids, postorderL]

theorem mem_allNodesL {k : Node} {l : List Node} : k ∈ allNodesL l ↔ ∃ n ∈ l, k ∈ allNodes n := by
  induction l with
  | nil => simp [allNodesL]
  | cons n l ih => simp [allNodesL, ih]

theorem nil_mem_allNodes {n : Node} :
    Node.nil ∈ allNodes n ↔ n = .nil ∨ ∃ k ∈ kids n, Node.nil ∈ allNodes k := by
  cases n with
  | «macro» name args =>
    rcases name with _ | ⟨p, x⟩ <;> simp [allNodes, kids, mem_allNodesL]
  | _ => simp [allNodes, kids, mem_allNodesL]

section
variable {V S : Type} {visit : Visit V S}

theorem logged_willing (h : Willing visit) (v : V) (n : Node) (s : S) (log : List Node) :
    ∃ w s', logged visit v n (s, log) = .ok (some w, (s', log ++ [n])) := by
  obtain ⟨w, s', h⟩ := h v n s
  exact ⟨w, s', by simp [logged, h]⟩

theorem walkList_willing {l : List Node}
    (ih : ∀ n ∈ l, ∀ (v : V) (s : S) (log : List Node), Node.nil ∉ allNodes n →
      ∃ s', walk (logged visit) v n (s, log) = .ok (s', log ++ dfs n)) :
    ∀ (v : V) (s : S) (log : List Node), (∀ n ∈ l, Node.nil ∉ allNodes n) →
      ∃ s', walkList (logged visit) v l (s, log) = .ok (s', log ++ dfsL l) := by
  induction l with
  | nil => intro v s log _; exact ⟨s, by simp [walkList, dfsL]⟩
  | cons n l ihl =>
    intro v s log hn
    obtain ⟨s1, h1⟩ := ih n (by simp) v s log (hn n (by simp))
    obtain ⟨s2, h2⟩ := ihl (fun k hk => ih k (by simp [hk])) v s1 (log ++ dfs n) fun k hk => hn k (by simp [hk])
    exact ⟨s2, by simp [walkList, h1, h2, dfsL]⟩

theorem walk_willing (hw : Willing visit) (n : Node) : ∀ (v : V) (s : S) (log : List Node),
    Node.nil ∉ allNodes n → ∃ s', walk (logged visit) v n (s, log) = .ok (s', log ++ dfs n) := by
  induction n using kids_induction with
  | step n ih =>
    intro v s log hn
    rw [nil_mem_allNodes] at hn
    simp only [not_or, not_exists, not_and] at hn
    obtain ⟨hn, hk⟩ := hn
    obtain ⟨w, s1, h1⟩ := logged_willing hw v n s log
    obtain ⟨s2, h2⟩ := walkList_willing ih w s1 (log ++ [n]) hk
    obtain ⟨w3, s3, h3⟩ := logged_willing hw w .nil s2 ((log ++ [n]) ++ dfsL (kids n))
    refine ⟨s3, ?_⟩
    rw [walk_eq, h1]
    simp only [Res.ok_bind, notNil hn, Bool.false_eq_true, if_false, h2, h3, dfs_eq hn, Res.ok.injEq,
      Prod.mk.injEq, true_and]
    simp

/-- Without the log. -/
theorem walk_willing_ok (hw : Willing visit) (n : Node) : ∀ (v : V) (s : S),
    Node.nil ∉ allNodes n → ∃ s', walk visit v n s = .ok s' := by
  induction n using kids_induction with
  | step n ih =>
    intro v s hn
    rw [nil_mem_allNodes] at hn
    simp only [not_or, not_exists, not_and] at hn
    obtain ⟨hn, hk⟩ := hn
    have hl : ∀ (l : List Node), (∀ k ∈ l, k ∈ kids n) → ∀ w s, ∃ s', walkList visit w l s = .ok s' := by
      intro l
      induction l with
      | nil => intro _ w s; exact ⟨s, by simp [walkList]⟩
      | cons k l ihl =>
        intro hm w s
        obtain ⟨s1, h1⟩ := ih k (hm k (by simp)) w s (hk k (hm k (by simp)))
        obtain ⟨s2, h2⟩ := ihl (fun j hj => hm j (by simp [hj])) w s1
        exact ⟨s2, by simp [walkList, h1, h2]⟩
    obtain ⟨w, s1, h1⟩ := hw v n s
    obtain ⟨s2, h2⟩ := hl (kids n) (fun _ h => h) w s1
    obtain ⟨w3, s3, h3⟩ := hw w .nil s2
    exact ⟨s3, by rw [walk_eq, h1]; simp [notNil hn, h2, h3]⟩

theorem walk_willing_panic (hw : Willing visit) (n : Node) : ∀ (v : V) (s : S),
    Node.nil ∈ allNodes n → walk visit v n s = .panic (.other "ast.Walk: unknown ast node") := by
  induction n using kids_induction with
  | step n ih =>
    intro v s hn
    obtain ⟨w, s1, h1⟩ := hw v n s
    rw [walk_eq, h1]
    rw [nil_mem_allNodes] at hn
    by_cases h0 : n = .nil
    · subst h0; simp [Node.isNil]
    · obtain ⟨k, hk, hkn⟩ := hn.resolve_left h0
      have hl : ∀ (l : List Node), (∀ j ∈ l, j ∈ kids n) → k ∈ l → ∀ w s,
          walkList visit w l s = .panic (.other "ast.Walk: unknown ast node") := by
        intro l
        induction l with
        | nil => simp
        | cons j l ihl =>
          intro hm hkl w s
          by_cases hj : Node.nil ∈ allNodes j
          · simp [walkList, ih j (hm j (by simp)) w s hj]
          · obtain ⟨s', h'⟩ := walk_willing_ok hw j w s hj
            have hkl : k ∈ l := by
              rcases List.mem_cons.1 hkl with rfl | h
              · exact absurd hkn hj
              · exact h
            simp [walkList, h', ihl (fun i hi => hm i (by simp [hi])) hkl w s']
      simp [notNil h0, hl (kids n) (fun _ h => h) hk]

end

/-! ## Opening and closing calls -/

theorem opens_append (a b : List Node) : opens (a ++ b) = opens a ++ opens b := by simp [opens]

/-- The calls `Inspect` makes for an answer function `f`. -/
theorem closings_step (f : Node → Bool) (n : Node) (hn : n ≠ .nil) (st log : List Node) :
    closings f st (n :: log) = if f n then closings f (n :: st) log else closings f st log := by
  cases st <;> simp [closings, notNil hn]

theorem closings_nil (f : Node → Bool) (m : Node) (st log : List Node) :
    closings f (m :: st) (.nil :: log) = (closings f st log).map (m :: ·) := by
  simp [closings, Node.isNil]

section
variable (f : Node → Bool)

mutual
/-- The calls of `Inspect` with answers `f`. -/
inductive Insp : Node → List Node → List Node → Prop where
  | declined {n} : n ≠ .nil → f n = false → Insp n [n] []
  | accepted {n log cl} : n ≠ .nil → f n = true → InspL (kids n) log cl →
      Insp n (n :: (log ++ [.nil])) (cl ++ [n])
inductive InspL : List Node → List Node → List Node → Prop where
  | nil : InspL [] [] []
  | cons {n l a b ca cb} : Insp n a ca → InspL l b cb → InspL (n :: l) (a ++ b) (ca ++ cb)
end

/-- The logging function passed to `Inspect`. -/
def logAns (f : Node → Bool) : Node → List Node → Res (Bool × List Node) := fun n log => .ok (f n, log ++ [n])

theorem insp_walk (n : Node) : Node.nil ∉ allNodes n → ∃ calls cl, Insp f n calls cl ∧ ∀ log,
    walk (inspectorVisit (logAns f)) () n log = .ok (log ++ calls) := by
  induction n using kids_induction with
  | step n ih =>
    intro hn
    rw [nil_mem_allNodes] at hn
    simp only [not_or, not_exists, not_and] at hn
    obtain ⟨hn, hk⟩ := hn
    have hl : ∀ (l : List Node), (∀ k ∈ l, k ∈ kids n) → ∃ calls cl, InspL f l calls cl ∧ ∀ log,
        walkList (inspectorVisit (logAns f)) () l log = .ok (log ++ calls) := by
      intro l
      induction l with
      | nil => intro _; exact ⟨[], [], .nil, fun log => by simp [walkList]⟩
      | cons k l ihl =>
        intro hm
        obtain ⟨a, ca, h1, h2⟩ := ih k (hm k (by simp)) (hk k (hm k (by simp)))
        obtain ⟨b, cb, h3, h4⟩ := ihl fun j hj => hm j (by simp [hj])
        exact ⟨a ++ b, ca ++ cb, .cons h1 h3, fun log => by simp [walkList, h2, h4]⟩
    cases hf : f n with
    | false =>
      refine ⟨[n], [], .declined hn hf, fun log => ?_⟩
      rw [walk_eq]
      simp [inspectorVisit, logAns, hf]
    | true =>
      obtain ⟨calls, cl, h1, h2⟩ := hl (kids n) fun _ h => h
      refine ⟨_, _, .accepted hn hf h1, fun log => ?_⟩
      rw [walk_eq]
      simp [inspectorVisit, logAns, hf, notNil hn] at h2 ⊢
      simp [inspectorVisit, logAns, h2]

variable {f}

theorem insp_closings (n : Node) : ∀ calls cl, Insp f n calls cl → ∀ st log,
    closings f st (calls ++ log) = (closings f st log).map (cl ++ ·) := by
  induction n using kids_induction with
  | step n ih =>
    intro calls cl h st log
    cases h with
    | declined hn hf =>
      rw [List.singleton_append, closings_step f n hn, hf]
      cases closings f st log <;> simp
    | @accepted _ lg cl hn hf hl =>
      have hl' : ∀ (l : List Node), (∀ k ∈ l, k ∈ kids n) → ∀ calls cl, InspL f l calls cl → ∀ st log,
          closings f st (calls ++ log) = (closings f st log).map (cl ++ ·) := by
        intro l
        induction l with
        | nil =>
          intro _ calls cl h st log
          cases h
          cases h : closings f st log <;> simp [h]
        | cons k l ihl =>
          intro hm calls cl h st log
          cases h with
          | cons h1 h2 =>
            rw [List.append_assoc, ih k (hm k (by simp)) _ _ h1, ihl (fun j hj => hm j (by simp [hj])) _ _ h2]
            cases closings f st log <;> simp
      rw [List.cons_append, closings_step f n hn, hf, List.append_assoc]
      simp only [if_true]
      rw [hl' _ (fun _ h => h) _ _ hl, List.singleton_append, closings_nil]
      cases closings f st log <;> simp

theorem insp_lineage (n : Node) : ∀ calls cl, Insp f n calls cl → ∀ up, up.all f = true →
    opens calls = ((lineage up n).filter fun q => q.1.all f).map Prod.snd := by
  induction n using kids_induction with
  | step n ih =>
    intro calls cl h up hup
    have none_of : ∀ (l : List Node) (u : List Node), u.all f = false →
        (lineageL u l).filter (fun q => q.1.all f) = [] := by
      have one : ∀ (n : Node) (u : List Node), u.all f = false → (lineage u n).filter (fun q => q.1.all f) = [] := by
        intro n
        induction n using kids_induction with
        | step n ih =>
          intro u hu
          rw [lineage_eq, List.filter_cons_of_neg (by simp [hu])]
          have hu' : (n :: u).all f = false := by simp [hu]
          generalize n :: u = w at hu'
          have : ∀ l : List Node, (∀ k ∈ l, k ∈ kids n) → (lineageL w l).filter (fun q => q.1.all f) = [] := by
            intro l
            induction l with
            | nil => intro _; simp [lineageL]
            | cons k l ihl =>
              intro hm
              rw [lineageL, List.filter_append, ih k (hm k (by simp)) w hu', ihl fun j hj => hm j (by simp [hj])]
              rfl
          exact this _ fun _ h => h
      intro l u hu
      induction l with
      | nil => simp [lineageL]
      | cons k l ihl => rw [lineageL, List.filter_append, one k u hu, ihl]; rfl
    rw [lineage_eq, List.filter_cons_of_pos (by simpa using hup)]
    cases h with
    | declined hn hf =>
      rw [none_of _ _ (by simp [hf])]
      simp [opens, notNil hn]
    | @accepted _ lg cl hn hf hl =>
      have hup' : (n :: up).all f = true := by simp only [List.all_cons, hf, hup, Bool.and_self]
      have hl' : ∀ (l : List Node), (∀ k ∈ l, k ∈ kids n) → ∀ calls cl, InspL f l calls cl →
          opens calls = ((lineageL (n :: up) l).filter fun q => q.1.all f).map Prod.snd := by
        intro l
        induction l with
        | nil => intro _ calls cl h; cases h; simp [opens, lineageL]
        | cons k l ihl =>
          intro hm calls cl h
          cases h with
          | cons h1 h2 =>
            rw [opens_append, lineageL, List.filter_append, List.map_append,
              ih k (hm k (by simp)) _ _ h1 _ hup', ihl (fun j hj => hm j (by simp [hj])) _ _ h2]
      have := hl' _ (fun _ h => h) _ _ hl
      rw [List.map_cons, ← this]
      simp [opens, notNil hn, Node.isNil]

/-- The accepted nodes among the opening calls are those closed, up to order. -/
theorem insp_perm (n : Node) : ∀ calls cl, Insp f n calls cl → cl.Perm ((opens calls).filter f) := by
  induction n using kids_induction with
  | step n ih =>
    intro calls cl h
    cases h with
    | declined hn hf => simp [opens, notNil hn, hf]
    | @accepted _ lg cl hn hf hl =>
      have hl' : ∀ (l : List Node), (∀ k ∈ l, k ∈ kids n) → ∀ calls cl, InspL f l calls cl →
          cl.Perm ((opens calls).filter f) := by
        intro l
        induction l with
        | nil => intro _ calls cl h; cases h; simp [opens]
        | cons k l ihl =>
          intro hm calls cl h
          cases h with
          | cons h1 h2 =>
            rw [opens_append, List.filter_append]
            exact (ih k (hm k (by simp)) _ _ h1).append (ihl (fun j hj => hm j (by simp [hj])) _ _ h2)
      have h1 := hl' _ (fun _ h => h) _ _ hl
      have h2 : (opens (n :: (lg ++ [.nil]))).filter f = n :: (opens lg).filter f := by
        simp [opens, notNil hn, Node.isNil, hf]
      rw [h2]
      exact List.perm_append_comm.trans (h1.cons n)

end

/-- The depth-first sequence is what `Inspect` does when everything is accepted. -/
theorem insp_dfs (n : Node) : Node.nil ∉ allNodes n → Insp (fun _ => true) n (dfs n) (postorder n) := by
  induction n using kids_induction with
  | step n ih =>
    intro hn
    rw [nil_mem_allNodes] at hn
    simp only [not_or, not_exists, not_and] at hn
    obtain ⟨hn, hk⟩ := hn
    rw [dfs_eq hn, postorder_eq]
    refine .accepted hn rfl ?_
    have : ∀ l : List Node, (∀ k ∈ l, k ∈ kids n) → InspL (fun _ => true) l (dfsL l) (postorderL l) := by
      intro l
      induction l with
      | nil => intro _; exact .nil
      | cons k l ihl =>
        intro hm
        exact .cons (ih k (hm k (by simp)) (hk k (hm k (by simp)))) (ihl fun j hj => hm j (by simp [hj]))
    exact this _ fun _ h => h

section
variable {V S : Type} {visit : Visit V S}

/-- Answers determine the calls. -/
theorem trace_unique (n : Node) : ∀ (v : V) (a b : List (Call V)) (s s1 s2 : S), Trace v n a → Trace v n b →
    Replay visit a s s1 → Replay visit b s s2 → a = b ∧ s1 = s2 := by
  induction n using kids_induction with
  | step n ih =>
    intro v a b s s1 s2 ha hb ra rb
    have hl : ∀ (l : List Node), (∀ k ∈ l, k ∈ kids n) → ∀ (w : V) (a b : List (Call V)) (s s1 s2 : S),
        TraceL w l a → TraceL w l b → Replay visit a s s1 → Replay visit b s s2 → a = b ∧ s1 = s2 := by
      intro l
      induction l with
      | nil =>
        intro _ w a b s s1 s2 ha hb ra rb
        cases ha; cases hb; cases ra; cases rb
        exact ⟨rfl, rfl⟩
      | cons k l ihl =>
        intro hm w a b s s1 s2 ha hb ra rb
        cases ha with
        | cons h1 h2 =>
          cases hb with
          | cons h3 h4 =>
            obtain ⟨t1, r1, r2⟩ := replay_append.1 ra
            obtain ⟨t2, r3, r4⟩ := replay_append.1 rb
            obtain ⟨rfl, rfl⟩ := ih k (hm k (by simp)) _ _ _ _ _ _ h1 h3 r1 r3
            obtain ⟨rfl, rfl⟩ := ihl (fun j hj => hm j (by simp [hj])) _ _ _ _ _ _ h2 h4 r2 r4
            exact ⟨rfl, rfl⟩
    cases ha with
    | declined =>
      have e1 := replay_single.1 ra
      cases hb with
      | declined =>
        have e2 := replay_single.1 rb
        rw [e1] at e2
        simp only [Res.ok.injEq, Prod.mk.injEq, true_and] at e2
        exact ⟨rfl, e2⟩
      | accepted hn h =>
        cases rb with
        | cons e2 _ => simp only at e1 e2; rw [e1] at e2; simp at e2
    | accepted hn h =>
      cases ra with
      | cons e1 ra =>
        cases hb with
        | declined => have e2 := replay_single.1 rb; simp only at e1 e2; rw [e1] at e2; simp at e2
        | accepted hn' h' =>
          cases rb with
          | cons e2 rb =>
            simp only at e1 e2
            rw [e1] at e2
            simp only [Res.ok.injEq, Prod.mk.injEq, Option.some.injEq] at e2
            obtain ⟨rfl, rfl⟩ := e2
            obtain ⟨t1, r1, r2⟩ := replay_append.1 ra
            obtain ⟨t2, r3, r4⟩ := replay_append.1 rb
            obtain ⟨rfl, rfl⟩ := hl _ (fun _ h => h) _ _ _ _ _ _ h h' r1 r3
            have e3 := replay_single.1 r2
            have e4 := replay_single.1 r4
            simp only at e3 e4
            rw [e3] at e4
            simp only [Res.ok.injEq, Prod.mk.injEq] at e4
            obtain ⟨rfl, rfl⟩ := e4
            exact ⟨rfl, rfl⟩

end
end Verif
