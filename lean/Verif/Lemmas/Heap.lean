import Verif.Spec.Heap
import Mathlib.Logic.Function.Iterate
import Mathlib.Data.List.Perm.Subperm
import Mathlib.Data.List.Range
/-! # Objects and trees -/

namespace Verif
open GoFloat Spec
variable {F : Type}

/-- A node without its children, as a cell with the given children. -/
def TNode.cell : TNode F → List Ref → Cell F
  | .box b, _ => .box b
  | .char c, _ => .char c
  | .accent c, _ => .accent c
  | .list k hd _, rs => .list k hd rs
  | .rule b, _ => .rule b
  | .glue g, _ => .glue g
  | .kern k, _ => .kern k

/-- The children of a node. -/
def TNode.kids : TNode F → List (TNode F)
  | .list _ _ ts => ts
  | _ => []

/-- `At`, the same for all kinds of nodes. -/
theorem at_iff (h : Heap F) (r : Ref) (t : TNode F) (S : List Ref) :
    At h r t S ↔ ∃ rs S', h[r]? = some (t.cell rs) ∧ (t.cell rs).refs = rs ∧ S = r :: S' ∧ AtAll h rs t.kids S' := by
  cases t with
  | list k hd ts => simp [At, TNode.cell, TNode.kids, Cell.refs]
  | _ =>
    simp only [At, TNode.cell, TNode.kids, Cell.refs]
    constructor
    · rintro ⟨h1, rfl⟩
      exact ⟨[], [], h1, rfl, rfl, by simp [AtAll]⟩
    · rintro ⟨rs, S', h1, rfl, rfl, h2⟩
      simp only [AtAll] at h2
      exact ⟨h1, by rw [h2]⟩

theorem atAll_nil (h : Heap F) (ts : List (TNode F)) (S : List Ref) : AtAll h [] ts S ↔ ts = [] ∧ S = [] := by
  cases ts <;> simp [AtAll]

theorem atAll_nil' (h : Heap F) (rs : List Ref) (S : List Ref) : AtAll h rs [] S ↔ rs = [] ∧ S = [] := by
  cases rs <;> simp [AtAll]

theorem atAll_cons (h : Heap F) (r : Ref) (rs : List Ref) (t : TNode F) (ts : List (TNode F)) (S : List Ref) :
    AtAll h (r :: rs) (t :: ts) S ↔ ∃ S1 S2, S = S1 ++ S2 ∧ At h r t S1 ∧ AtAll h rs ts S2 := by
  simp [AtAll]

/-- Induction over trees and lists of trees. -/
theorem tree_ind {P : TNode F → Prop} {Q : List (TNode F) → Prop} (h1 : ∀ t, Q t.kids → P t) (h2 : Q [])
    (h3 : ∀ t ts, P t → Q ts → Q (t :: ts)) : (∀ t, P t) ∧ ∀ ts, Q ts := by
  have : ∀ t, P t := by
    intro t
    refine TNode.rec (motive_1 := P) (motive_2 := Q) ?_ ?_ ?_ ?_ ?_ ?_ ?_ h2 (fun t ts a b => h3 t ts a b) t
    · intro b; exact h1 _ h2
    · intro b; exact h1 _ h2
    · intro b; exact h1 _ h2
    · intro k hd cs hq; exact h1 _ hq
    · intro b; exact h1 _ h2
    · intro b; exact h1 _ h2
    · intro b; exact h1 _ h2
  exact ⟨this, fun ts => by induction ts with | nil => exact h2 | cons t ts ih => exact h3 t ts (this t) ih⟩

theorem at_same_both {h h' : Heap F} : (∀ (t : TNode F) (r : Ref) (S : List Ref), At h r t S → SameAt S h h' → At h' r t S) ∧
    ∀ (ts : List (TNode F)) (rs : List Ref) (S : List Ref), AtAll h rs ts S → SameAt S h h' → AtAll h' rs ts S := by
  refine tree_ind ?_ ?_ ?_
  · intro t ih r S ha hs
    rw [at_iff] at ha ⊢
    obtain ⟨rs, S', h1, h2, rfl, h3⟩ := ha
    exact ⟨rs, S', by rw [hs r (by simp), h1], h2, rfl, ih rs S' h3 fun x hx => hs x (by simp [hx])⟩
  · intro rs S ha _
    rw [atAll_nil'] at ha ⊢
    exact ha
  · intro t ts iht ihs rs S ha hs
    cases rs with
    | nil => simp [AtAll] at ha
    | cons r rs =>
      rw [atAll_cons] at ha ⊢
      obtain ⟨S1, S2, rfl, h1, h2⟩ := ha
      exact ⟨S1, S2, rfl, iht r S1 h1 fun x hx => hs x (by simp [hx]), ihs rs S2 h2 fun x hx => hs x (by simp [hx])⟩

theorem Spec.At.same {h h' : Heap F} {t : TNode F} {r : Ref} {S : List Ref} (ha : At h r t S) (hs : SameAt S h h') : At h' r t S :=
  at_same_both.1 t r S ha hs
theorem Spec.AtAll.same {h h' : Heap F} {ts : List (TNode F)} {rs : List Ref} {S : List Ref} (ha : AtAll h rs ts S) (hs : SameAt S h h') :
    AtAll h' rs ts S := at_same_both.2 ts rs S ha hs

theorem at_lt_both {h : Heap F} : (∀ (t : TNode F) (r : Ref) (S : List Ref), At h r t S → ∀ x ∈ S, x < h.length) ∧
    ∀ (ts : List (TNode F)) (rs : List Ref) (S : List Ref), AtAll h rs ts S → ∀ x ∈ S, x < h.length := by
  refine tree_ind ?_ ?_ ?_
  · intro t ih r S ha x hx
    rw [at_iff] at ha
    obtain ⟨rs, S', h1, h2, rfl, h3⟩ := ha
    rcases List.mem_cons.1 hx with rfl | hx
    · exact (List.getElem?_eq_some_iff.1 h1).1
    · exact ih rs S' h3 x hx
  · intro rs S ha
    rw [atAll_nil'] at ha
    simp [ha.2]
  · intro t ts iht ihs rs S ha x hx
    cases rs with
    | nil => simp [AtAll] at ha
    | cons r rs =>
      rw [atAll_cons] at ha
      obtain ⟨S1, S2, rfl, h1, h2⟩ := ha
      rcases List.mem_append.1 hx with hx | hx
      · exact iht r S1 h1 x hx
      · exact ihs rs S2 h2 x hx

theorem Spec.At.lt {h : Heap F} {t : TNode F} {r : Ref} {S : List Ref} (ha : At h r t S) : ∀ x ∈ S, x < h.length := at_lt_both.1 t r S ha
theorem Spec.AtAll.lt {h : Heap F} {ts : List (TNode F)} {rs : List Ref} {S : List Ref} (ha : AtAll h rs ts S) : ∀ x ∈ S, x < h.length :=
  at_lt_both.2 ts rs S ha

theorem Spec.At.root {h : Heap F} {t : TNode F} {r : Ref} {S : List Ref} (ha : At h r t S) : r ∈ S := by
  rw [at_iff] at ha
  obtain ⟨rs, S', _, _, rfl, _⟩ := ha
  simp

theorem cell_inj {t t' : TNode F} {rs rs' : List Ref} (h1 : (t.cell rs).refs = rs) (h2 : (t'.cell rs').refs = rs')
    (h : t.cell rs = t'.cell rs') : rs = rs' := by rw [← h1, ← h2, h]

theorem cell_kids {t t' : TNode F} {rs : List Ref} (h : t.cell rs = t'.cell rs) (hk : t.kids = t'.kids) : t = t' := by
  cases t <;> cases t' <;> simp_all [TNode.cell, TNode.kids]

theorem at_fun_both {h : Heap F} : (∀ (t : TNode F) (r : Ref) (S : List Ref), At h r t S → ∀ t' S', At h r t' S' → t = t' ∧ S = S') ∧
    ∀ (ts : List (TNode F)) (rs : List Ref) (S : List Ref), AtAll h rs ts S → ∀ ts' S', AtAll h rs ts' S' → ts = ts' ∧ S = S' := by
  refine tree_ind ?_ ?_ ?_
  · intro t ih r S ha t' S2 ha'
    rw [at_iff] at ha ha'
    obtain ⟨rs, S', h1, h2, rfl, h3⟩ := ha
    obtain ⟨rs', S'', h1', h2', rfl, h3'⟩ := ha'
    rw [h1] at h1'
    injection h1' with h1'
    cases cell_inj h2 h2' h1'
    obtain ⟨e1, rfl⟩ := ih rs S' h3 _ _ h3'
    exact ⟨cell_kids h1' e1, rfl⟩
  · intro rs S ha ts' S' ha'
    rw [atAll_nil'] at ha
    obtain ⟨rfl, rfl⟩ := ha
    rw [atAll_nil] at ha'
    exact ⟨ha'.1.symm, ha'.2.symm⟩
  · intro t ts iht ihs rs S ha ts' S' ha'
    cases rs with
    | nil => simp [AtAll] at ha
    | cons r rs =>
      cases ts' with
      | nil => simp [AtAll] at ha'
      | cons t' ts' =>
        rw [atAll_cons] at ha ha'
        obtain ⟨S1, S2, rfl, h1, h2⟩ := ha
        obtain ⟨S1', S2', rfl, h1', h2'⟩ := ha'
        obtain ⟨rfl, rfl⟩ := iht r S1 h1 _ _ h1'
        obtain ⟨rfl, rfl⟩ := ihs rs S2 h2 _ _ h2'
        exact ⟨rfl, rfl⟩

theorem Spec.At.unique {h : Heap F} {t t' : TNode F} {r : Ref} {S S' : List Ref} (ha : At h r t S) (hb : At h r t' S') : t = t' ∧ S = S' :=
  at_fun_both.1 t r S ha t' S' hb

/-! ## How deep -/

mutual
/-- The nesting of a tree. -/
def TNode.nest : TNode F → Nat
  | .list _ _ ts => nestAll ts + 1
  | _ => 1
/-- The largest nesting. -/
def nestAll : List (TNode F) → Nat
  | [] => 0
  | t :: ts => Nat.max t.nest (nestAll ts)
end

theorem nest_eq (t : TNode F) : t.nest = nestAll t.kids + 1 := by cases t <;> simp [TNode.nest, TNode.kids, nestAll]
theorem nestAll_nil : nestAll ([] : List (TNode F)) = 0 := by simp [nestAll]
theorem nestAll_cons (t : TNode F) (ts : List (TNode F)) : nestAll (t :: ts) = Nat.max t.nest (nestAll ts) := by simp [nestAll]

theorem length_le_of_nodup {l : List Nat} {n : Nat} (hn : l.Nodup) (hb : ∀ x ∈ l, x < n) : l.length ≤ n := by
  have := (List.Nodup.subperm hn (l₂ := List.range n) (fun x hx => List.mem_range.2 (hb x hx))).length_le
  simpa using this

theorem nest_le_both {h : Heap F} : (∀ (t : TNode F) (r : Ref) (S V : List Ref), At h r t S → V.Nodup → (∀ v ∈ V, v < h.length) →
      (∀ v ∈ V, ∃ t' S', At h v t' S' ∧ t.nest < t'.nest) → t.nest + V.length ≤ h.length) ∧
    ∀ (ts : List (TNode F)) (rs : List Ref) (S V : List Ref), AtAll h rs ts S → V.Nodup → (∀ v ∈ V, v < h.length) →
      (∀ v ∈ V, ∃ t' S', At h v t' S' ∧ nestAll ts < t'.nest) → nestAll ts + V.length ≤ h.length := by
  refine tree_ind ?_ ?_ ?_
  · intro t ih r S V ha hn hb hv
    have hr := ha.lt r ha.root
    have hnr : r ∉ V := by
      intro hr'
      obtain ⟨t', S', h1, h2⟩ := hv r hr'
      cases (ha.unique h1).1
      omega
    have ha' := ha
    rw [at_iff] at ha
    obtain ⟨rs, S', h1, h2, rfl, h3⟩ := ha
    have := ih rs S' (r :: V) h3 (List.nodup_cons.2 ⟨hnr, hn⟩) (by
      intro v hv'
      rcases List.mem_cons.1 hv' with rfl | hv'
      · exact hr
      · exact hb v hv') (by
      intro v hv'
      rw [nest_eq] at hv
      rcases List.mem_cons.1 hv' with rfl | hv'
      · exact ⟨t, _, ha', by rw [nest_eq]; omega⟩
      · obtain ⟨t', S', a, b⟩ := hv v hv'
        exact ⟨t', S', a, by omega⟩)
    rw [List.length_cons] at this
    rw [nest_eq]
    omega
  · intro rs S V _ hn hb _
    rw [nestAll_nil, Nat.zero_add]
    exact length_le_of_nodup hn hb
  · intro t ts iht ihs rs S V ha hn hb hv
    cases rs with
    | nil => simp [AtAll] at ha
    | cons r rs =>
      rw [atAll_cons] at ha
      obtain ⟨S1, S2, rfl, h1, h2⟩ := ha
      rw [nestAll_cons] at hv ⊢
      have m1 : t.nest ≤ Nat.max t.nest (nestAll ts) := Nat.le_max_left _ _
      have m2 : nestAll ts ≤ Nat.max t.nest (nestAll ts) := Nat.le_max_right _ _
      have a := iht r S1 V h1 hn hb fun v hv' => by
        obtain ⟨t', S', a, b⟩ := hv v hv'
        exact ⟨t', S', a, by omega⟩
      have b := ihs rs S2 V h2 hn hb fun v hv' => by
        obtain ⟨t', S', a, b⟩ := hv v hv'
        exact ⟨t', S', a, by omega⟩
      have : Nat.max t.nest (nestAll ts) = t.nest ∨ Nat.max t.nest (nestAll ts) = nestAll ts := by
        rcases Nat.le_total t.nest (nestAll ts) with h | h
        · exact .inr (Nat.max_eq_right h)
        · exact .inl (Nat.max_eq_left h)
      rcases this with e | e <;> rw [e] <;> assumption

/-- What can be reached is nested no deeper than there are objects. -/
theorem Spec.At.nest_le {h : Heap F} {t : TNode F} {r : Ref} {S : List Ref} (ha : At h r t S) : t.nest ≤ h.length := by
  simpa using nest_le_both.1 t r S [] ha (by simp) (by simp) (by simp)

/-! ## Shrink and Grow -/

/-- The same objects have the same children. -/
def SameRefs (h h1 : Heap F) : Prop := ∀ x : Ref, (h1[x]?).map Cell.refs = (h[x]?).map Cell.refs

theorem iter_refs {f : Cell F → Cell F} (hf : ∀ c, (f c).refs = c.refs) (n : Nat) (c : Cell F) : (f^[n] c).refs = c.refs := by
  induction n generalizing c with
  | zero => rfl
  | succ n ih => rw [Function.iterate_succ_apply, ih, hf]

/-- `f` applied as often as the address occurs in `S`. -/
def Times (f : Cell F → Cell F) (S : List Ref) (h h' : Heap F) : Prop :=
  h'.length = h.length ∧ ∀ x : Ref, h'[x]? = (h[x]?).map (f^[S.count x])

theorem Times.refs {f : Cell F → Cell F} (hf : ∀ c, (f c).refs = c.refs) {S : List Ref} {h h' : Heap F} (ht : Times f S h h') :
    SameRefs h h' := by
  intro x
  rw [ht.2 x, Option.map_map]
  congr 1
  funext c
  exact iter_refs hf _ c

theorem times_nil (f : Cell F → Cell F) (h : Heap F) : Times f [] h h := ⟨rfl, fun x => by simp⟩

theorem Times.append {f : Cell F → Cell F} {S1 S2 : List Ref} {h h1 h2 : Heap F} (a : Times f S1 h h1) (b : Times f S2 h1 h2) :
    Times f (S1 ++ S2) h h2 := by
  refine ⟨b.1.trans a.1, fun x => ?_⟩
  rw [b.2, a.2, Option.map_map, List.count_append, Nat.add_comm, Function.iterate_add]

theorem times_modify (f : Cell F → Cell F) (h : Heap F) (r : Ref) : Times f [r] h (h.modify r f) := by
  refine ⟨List.length_modify .., fun x => ?_⟩
  rw [List.getElem?_modify]
  by_cases e : r = x
  · subst e; simp
  · simp [e]

theorem Times.perm {f : Cell F → Cell F} {S S' : List Ref} {h h1 : Heap F} (a : Times f S h h1) (hp : S.Perm S') : Times f S' h h1 :=
  ⟨a.1, fun x => by rw [a.2, hp.count_eq]⟩

theorem hwalk_both {f : Cell F → Cell F} (hf : ∀ c, (f c).refs = c.refs) {h : Heap F} :
    (∀ (t : TNode F) (r : Ref) (S : List Ref), At h r t S → ∀ n h1, t.nest ≤ n → SameRefs h h1 →
      ∃ h2, hwalk f n r h1 = .ok h2 ∧ Times f S h1 h2) ∧
    ∀ (ts : List (TNode F)) (rs : List Ref) (S : List Ref), AtAll h rs ts S → ∀ n h1, nestAll ts ≤ n → SameRefs h h1 →
      ∃ h2, rs.foldlM (fun h r => hwalk f n r h) h1 = .ok h2 ∧ Times f S h1 h2 := by
  refine tree_ind ?_ ?_ ?_
  · intro t ih r S ha n h1 hn hs
    rw [at_iff] at ha
    obtain ⟨rs, S', e1, e2, rfl, h3⟩ := ha
    rw [nest_eq] at hn
    obtain ⟨n, rfl⟩ : ∃ m, n = m + 1 := ⟨n - 1, by omega⟩
    have hr := hs r
    rw [e1] at hr
    simp only [Option.map_some, Option.map_eq_some_iff] at hr
    obtain ⟨c, hc1, hc2⟩ := hr
    obtain ⟨h2, k1, k2⟩ := ih rs S' h3 n h1 (by omega) hs
    refine ⟨h2.modify r f, ?_, ?_⟩
    · rw [hwalk, hc1]
      dsimp only
      rw [hc2, e2, k1, Res.ok_bind]
    · exact (k2.append (times_modify f h2 r)).perm (List.perm_append_singleton r S')
  · intro rs S ha n h1 _ _
    rw [atAll_nil'] at ha
    obtain ⟨rfl, rfl⟩ := ha
    exact ⟨h1, rfl, times_nil f h1⟩
  · intro t ts iht ihs rs S ha n h1 hn hs
    cases rs with
    | nil => simp [AtAll] at ha
    | cons r rs =>
      rw [atAll_cons] at ha
      obtain ⟨S1, S2, rfl, a1, a2⟩ := ha
      rw [nestAll_cons] at hn
      have m1 : t.nest ≤ Nat.max t.nest (nestAll ts) := Nat.le_max_left _ _
      have m2 : nestAll ts ≤ Nat.max t.nest (nestAll ts) := Nat.le_max_right _ _
      obtain ⟨h2, k1, k2⟩ := iht r S1 a1 n h1 (by omega) hs
      have hs2 : SameRefs h h2 := fun x => (k2.refs hf x).trans (hs x)
      obtain ⟨h3, l1, l2⟩ := ihs rs S2 a2 n h2 (by omega) hs2
      refine ⟨h3, ?_, k2.append l2⟩
      rw [List.foldlM_cons, k1]
      exact l1

/-- The objects at `S` are changed by `f`. -/
theorem at_map_both {be : Backend F} [GoFloat F] {f : Cell F → Cell F} {g : TNode F → TNode F}
    (hg : ∀ (t : TNode F) rs, (g t).cell rs = f (t.cell rs)) (hk : ∀ t, (g t).kids = t.kids.map g) {h h' : Heap F} :
    (∀ (t : TNode F) (r : Ref) (S : List Ref), At h r t S → (∀ x ∈ S, h'[x]? = (h[x]?).map f) → At h' r (g t) S) ∧
    ∀ (ts : List (TNode F)) (rs : List Ref) (S : List Ref), AtAll h rs ts S → (∀ x ∈ S, h'[x]? = (h[x]?).map f) →
      AtAll h' rs (ts.map g) S := by
  refine tree_ind ?_ ?_ ?_
  · intro t ih r S ha hs
    rw [at_iff] at ha ⊢
    obtain ⟨rs, S', h1, h2, rfl, h3⟩ := ha
    refine ⟨rs, S', by rw [hs r (by simp), h1, hg]; rfl, ?_, rfl, ?_⟩
    · have hx : ∀ t t' : TNode F, t.cell [] = t'.cell [] → True := fun _ _ _ => trivial
      clear hx
      by_cases hl : ∃ k hd ts, g t = .list k hd ts
      · obtain ⟨k, hd, ts, e⟩ := hl
        rw [e]; rfl
      · have : (g t).kids = [] := by
          cases e : g t <;> simp [TNode.kids]
          exact absurd ⟨_, _, _, e⟩ hl
        have h4 : ∀ rs, ((g t).cell rs).refs = [] := by
          intro rs
          cases e : g t <;> simp [TNode.cell, Cell.refs]
          exact absurd ⟨_, _, _, e⟩ hl
        rw [h4]
        rw [hk, List.map_eq_nil_iff] at this
        rw [this, atAll_nil'] at h3
        exact h3.1.symm
    · rw [hk]; exact ih rs S' h3 fun x hx => hs x (by simp [hx])
  · intro rs S ha _
    rw [atAll_nil'] at ha
    rw [List.map_nil, atAll_nil']
    exact ha
  · intro t ts iht ihs rs S ha hs
    cases rs with
    | nil => simp [AtAll] at ha
    | cons r rs =>
      rw [atAll_cons] at ha
      obtain ⟨S1, S2, rfl, h1, h2⟩ := ha
      rw [List.map_cons, atAll_cons]
      exact ⟨S1, S2, rfl, iht r S1 h1 fun x hx => hs x (by simp [hx]), ihs rs S2 h2 fun x hx => hs x (by simp [hx])⟩

section
variable [GoFloat F]

theorem shrinkAll_map (be : Backend F) (l : List (TNode F)) : shrinkAll be l = l.map (TNode.shrink be) := by
  induction l with
  | nil => simp [shrinkAll]
  | cons t l ih => simp [shrinkAll, ih]

theorem growAll_map (be : Backend F) (l : List (TNode F)) : growAll be l = l.map (TNode.grow be) := by
  induction l with
  | nil => simp [growAll]
  | cons t l ih => simp [growAll, ih]

theorem shrink_cell (be : Backend F) (t : TNode F) (rs : List Ref) : (t.shrink be).cell rs = (t.cell rs).shrink be := by
  cases t <;> simp [TNode.shrink, TNode.cell, Cell.shrink]
theorem grow_cell (be : Backend F) (t : TNode F) (rs : List Ref) : (t.grow be).cell rs = (t.cell rs).grow be := by
  cases t <;> simp [TNode.grow, TNode.cell, Cell.grow]
theorem shrink_kids (be : Backend F) (t : TNode F) : (t.shrink be).kids = t.kids.map (TNode.shrink be) := by
  cases t <;> simp [TNode.shrink, TNode.kids, shrinkAll_map]
theorem grow_kids (be : Backend F) (t : TNode F) : (t.grow be).kids = t.kids.map (TNode.grow be) := by
  cases t <;> simp [TNode.grow, TNode.kids, growAll_map]
theorem shrink_refs (be : Backend F) (c : Cell F) : (c.shrink be).refs = c.refs := by cases c <;> rfl
theorem grow_refs (be : Backend F) (c : Cell F) : (c.grow be).refs = c.refs := by cases c <;> rfl

theorem hShrink_times (be : Backend F) {h : Heap F} {r : Ref} {t : TNode F} {S : List Ref} (ha : At h r t S) :
    ∃ h', hShrink be r h = .ok ((), h') ∧ Times (Cell.shrink be) S h h' := by
  obtain ⟨h', a, b⟩ := (hwalk_both (shrink_refs be)).1 t r S ha h.length h ha.nest_le (fun _ => rfl)
  exact ⟨h', by rw [hShrink, a]; rfl, b⟩

theorem hGrow_times (be : Backend F) {h : Heap F} {r : Ref} {t : TNode F} {S : List Ref} (ha : At h r t S) :
    ∃ h', hGrow be r h = .ok ((), h') ∧ Times (Cell.grow be) S h h' := by
  obtain ⟨h', a, b⟩ := (hwalk_both (grow_refs be)).1 t r S ha h.length h ha.nest_le (fun _ => rfl)
  exact ⟨h', by rw [hGrow, a]; rfl, b⟩

theorem Times.once {f : Cell F → Cell F} {S : List Ref} {h h' : Heap F} (a : Times f S h h') (hn : S.Nodup) :
    ∀ x ∈ S, h'[x]? = (h[x]?).map f := by
  intro x hx
  rw [a.2, hn.count, if_pos hx]
  rfl

theorem Times.other {f : Cell F → Cell F} {S : List Ref} {h h' : Heap F} (a : Times f S h h') {x : Ref} (hx : x ∉ S) : h'[x]? = h[x]? := by
  rw [a.2, List.count_eq_zero_of_not_mem hx]
  simp

theorem hShrink_at (be : Backend F) {h : Heap F} {r : Ref} {t : TNode F} {S : List Ref} (ha : At h r t S) (hn : S.Nodup) :
    ∃ h', hShrink be r h = .ok ((), h') ∧ At h' r (t.shrink be) S ∧ h'.length = h.length ∧ ∀ x, x ∉ S → h'[x]? = h[x]? := by
  obtain ⟨h', a, b⟩ := hShrink_times be ha
  exact ⟨h', a, (at_map_both (be := be) (shrink_cell be) (shrink_kids be)).1 t r S ha (b.once hn), b.1, fun x hx => b.other hx⟩

theorem hGrow_at (be : Backend F) {h : Heap F} {r : Ref} {t : TNode F} {S : List Ref} (ha : At h r t S) (hn : S.Nodup) :
    ∃ h', hGrow be r h = .ok ((), h') ∧ At h' r (t.grow be) S ∧ h'.length = h.length ∧ ∀ x, x ∉ S → h'[x]? = h[x]? := by
  obtain ⟨h', a, b⟩ := hGrow_times be ha
  exact ⟨h', a, (at_map_both (be := be) (grow_cell be) (grow_kids be)).1 t r S ha (b.once hn), b.1, fun x hx => b.other hx⟩
end

end Verif
