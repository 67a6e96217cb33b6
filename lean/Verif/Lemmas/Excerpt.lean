import Verif.Lemmas.Template
/-! # Parts of sentences, for C97 -/

namespace Verif
open Spec
variable {U : Nat → Bool}

/-- The lexemes `L` contain the lexeme `c` at position `a` and, after it, items with the trees `l`, ended by `u` at position `b`; what comes after
them satisfies `S`. In math, if `m`. -/
def Here (m : Bool) (u : Until) (c : Nat) (L : List Lexed) (a : Nat) (l : List Node) (b : Nat) (S : List Lexed → Prop) : Prop :=
  ∃ pre e D L2 m', L = pre ++ ⟨.mark c, a, e⟩ :: D ∧ (m = true → m' = true) ∧ Items m' u D l b L2 ∧ S L2

/-- The list of trees of this node is there. -/
def Found (m : Bool) (L : List Lexed) (S : List Lexed → Prop) : Node → Prop
  | .math _ a l b => Here true .dollar ch!"$" L a l b S
  | .arg a l b => Here m .brace ch!"{" L a l b S
  | .optArg a l b => Here m .bracket ch!"[" L a l b S
  | .list l => ∃ a b, Here m .brace ch!"{" L a l b S
  | _ => True

theorem Here.mono {m u c L a l b} {S : List Lexed → Prop} (h : Here m u c L a l b S) {m2 : Bool} {S2 : List Lexed → Prop} (hm : m2 = true → m = true) (pre : List Lexed)
    (hS : ∀ L2, S L2 → S2 L2) : Here m2 u c (pre ++ L) a l b S2 := by
  obtain ⟨p, e, D, L2, m', rfl, h1, h2, h3⟩ := h
  exact ⟨pre ++ p, e, D, L2, m', by simp, fun h => h1 (hm h), h2, hS _ h3⟩

theorem Found.mono {m L k} {S : List Lexed → Prop} (h : Found m L S k) {m2 : Bool} {S2 : List Lexed → Prop} (hm : m2 = true → m = true) (pre : List Lexed)
    (hS : ∀ L2, S L2 → S2 L2) : Found m2 (pre ++ L) S2 k := by
  cases k <;> try trivial
  · obtain ⟨a, b, h⟩ := h; exact ⟨a, b, Here.mono h hm pre hS⟩
  · exact Here.mono h hm pre hS
  · exact Here.mono h hm pre hS
  · exact Here.mono h (fun h => h) pre hS

def Tail (L1 L2 : List Lexed) : Prop := ∃ E, L2 = E ++ L1

theorem Tail.ne {L1 L2 : List Lexed} (h : Tail L1 L2) (hn : L1 ≠ []) : L2 ≠ [] := by
  obtain ⟨E, rfl⟩ := h
  simp [hn]

theorem Tail.trans {L1 L2 L3 : List Lexed} (h : Tail L1 L2) (h' : Tail L2 L3) : Tail L1 L3 := by
  obtain ⟨E, rfl⟩ := h
  obtain ⟨E', rfl⟩ := h'
  exact ⟨E' ++ E, by simp⟩

theorem items_nil {m u l p L1} (h : Items m u [] l p L1) : p = 0 ∧ L1 = [] := by
  cases h; exact ⟨rfl, rfl⟩

/-- Every list of trees in an item is found. -/
theorem item1_found {m L n L1} (h : Item1 m L n L1) : ∀ k ∈ allNodes n, Found m L (Tail L1) k := by
  refine Item1.rec (motive_1 := fun m L n L1 _ => ∀ k ∈ allNodes n, Found m L (Tail L1) k)
    (motive_2 := fun m u L l p L1 _ => ∀ k ∈ allNodesL l, Found m L (fun L2 => Tail L1 L2 ∧ (p ≠ 0 → L2 ≠ [])) k)
    (motive_3 := fun m n L l L1 _ => ∀ k ∈ allNodesL l, Found m L (Tail L1) k)
    ?_ ?_ ?_ ?_ ?_ ?_ ?_ ?_ ?_ ?_ ?_ ?_ ?_ ?_ ?_ ?_ ?_ ?_ ?_ h
  · intro m t o e L k hk; simp only [allNodes, List.mem_singleton] at hk; subst hk; trivial
  · intro m t o e L k hk; simp only [allNodes, List.mem_singleton] at hk; subst hk; trivial
  · intro m o e L k hk; simp only [allNodes, List.mem_singleton] at hk; subst hk; trivial
  · intro t o e L k hk; simp only [allNodes, List.mem_singleton] at hk; subst hk; trivial
  · intro t o e L k hk; simp only [allNodes, List.mem_singleton] at hk; subst hk; trivial
  · intro m c o e L hc k hk; simp only [allNodes, List.mem_singleton] at hk; subst hk; trivial
  · intro m o e L l p L' h ih k hk
    simp only [allNodes, List.mem_cons] at hk
    rcases hk with rfl | hk
    · exact ⟨[], e, L, L', true, rfl, fun h => h, h, [], rfl⟩
    · exact (ih k hk).mono (fun _ => rfl) [_] fun _ h => h.1
  · intro o e L l p L' h ih k hk
    simp only [allNodes, List.mem_cons] at hk
    rcases hk with rfl | hk
    · exact ⟨o, p, [], e, L, L', true, rfl, fun h => h, h, [], rfl⟩
    · exact (ih k hk).mono (fun h => h) [_] fun _ h => h.1
  · intro m o e e' L l p L' h ih k hk
    simp only [allNodes, List.mem_cons] at hk
    rcases hk with rfl | rfl | hk
    · trivial
    · exact ⟨e, p, [_], e', L, L', m, rfl, fun h => h, h, [], rfl⟩
    · exact (ih k hk).mono (fun h => h) [_, _] fun _ h => h.1
  · intro m o e L n L' h ih k hk
    simp only [allNodes, List.mem_cons] at hk
    rcases hk with rfl | hk
    · trivial
    · exact (ih k hk).mono (fun h => h) [_] fun _ h => h
  · intro m o e e' L l p L' h ih k hk
    simp only [allNodes, List.mem_cons] at hk
    rcases hk with rfl | rfl | hk
    · trivial
    · exact ⟨e, p, [_], e', L, L', m, rfl, fun h => h, h, [], rfl⟩
    · exact (ih k hk).mono (fun h => h) [_, _] fun _ h => h.1
  · intro m o e L n L' h ih k hk
    simp only [allNodes, List.mem_cons] at hk
    rcases hk with rfl | hk
    · trivial
    · exact (ih k hk).mono (fun h => h) [_] fun _ h => h
  · intro m o e e' L l p L1 args L' h1 h2 ih1 ih2 k hk
    obtain ⟨D, rfl⟩ := items_suffix h1
    obtain ⟨D', e2⟩ := args_suffix h2
    simp only [allNodes, allNodesL, List.mem_cons, List.mem_append, List.cons_append] at hk
    rcases hk with rfl | rfl | hk | hk
    · trivial
    · exact ⟨[_], e', D ++ L1, L1, m, rfl, fun h => h, h1, D', e2⟩
    · exact (ih1 k hk).mono (fun h => h) [_, _] fun _ h => Tail.trans ⟨D', e2⟩ h.1
    · exact (ih2 k hk).mono (fun h => h) (_ :: _ :: D) fun _ h => h
  · intro m t o e L args L' hk h1 hh ih k hk
    simp only [allNodes, List.mem_cons] at hk
    rcases hk with rfl | hk
    · trivial
    · exact (ih k hk).mono (fun h => h) [_] fun _ h => h
  · intro m u k hk; cases hk
  · intro m u k o e L hu k hk; cases hk
  · intro m u x L n L1 l p L' hx h1 h2 ih1 ih2 k hk
    obtain ⟨D, -, e⟩ := item1_suffix h1
    obtain ⟨D', e'⟩ := items_suffix h2
    have hk : k ∈ allNodes n ∨ k ∈ allNodesL l := by
      rcases keep_cases n l with ⟨_, h⟩ | ⟨_, h⟩ <;> rw [h] at hk
      · exact .inr hk
      · simpa only [allNodesL, List.mem_append] using hk
    rcases hk with hk | hk
    · refine (ih1 k hk).mono (fun h => h) [] fun L2 h => ⟨Tail.trans ⟨D', e'⟩ h, fun hp => h.ne ?_⟩
      rintro rfl
      exact hp (items_nil h2).1
    · rw [e]
      exact (ih2 k hk).mono (fun h => h) D fun L2 h => h
  · intro m L k hk; cases hk
  · intro m n o e L l p L1 args L' h1 h2 ih1 ih2 k hk
    obtain ⟨D, rfl⟩ := items_suffix h1
    obtain ⟨D', e2⟩ := args_suffix h2
    simp only [allNodes, allNodesL, List.mem_cons, List.mem_append, List.cons_append] at hk
    rcases hk with rfl | hk | hk
    · exact ⟨[], e, D ++ L1, L1, m, rfl, fun h => h, h1, D', e2⟩
    · exact (ih1 k hk).mono (fun h => h) [_] fun _ h => Tail.trans ⟨D', e2⟩ h.1
    · exact (ih2 k hk).mono (fun h => h) (_ :: D) fun _ h => h

theorem items_found {m u L l p L1} (h : Items m u L l p L1) : ∀ k ∈ allNodesL l, Found m L (fun L2 => Tail L1 L2 ∧ (p ≠ 0 → L2 ≠ [])) k := by
  generalize hn : L.length = n
  induction n using Nat.strongRecOn generalizing L l with
  | _ n ih =>
    intro k hk
    cases h with
    | eof => cases hk
    | close _ => cases hk
    | @item _ _ x L n1 L2 l2 _ _ hx h1 h2 =>
      obtain ⟨D, hD, e⟩ := item1_suffix h1
      obtain ⟨D', e'⟩ := items_suffix h2
      have hk : k ∈ allNodes n1 ∨ k ∈ allNodesL l2 := by
        rcases keep_cases n1 l2 with ⟨_, h⟩ | ⟨_, h⟩ <;> rw [h] at hk
        · exact .inr hk
        · simpa only [allNodesL, List.mem_append] using hk
      rcases hk with hk | hk
      · refine (item1_found h1 k hk).mono (fun h => h) [] fun L2 h => ⟨Tail.trans ⟨D', e'⟩ h, fun hp => h.ne ?_⟩
        rintro rfl
        exact hp (items_nil h2).1
      · have hl : L2.length < n := by
          have := congrArg List.length e
          have := List.length_pos_iff.2 hD
          simp at *
          omega
        rw [e]
        exact (ih _ hl h2 rfl k hk).mono (fun h => h) D fun L2 h => h

/-- An item that begins with a dollar sign is math. -/
theorem item1_dollar {m : Bool} {x : Lexed} {L L1 : List Lexed} {n : Node} (h : Item1 m (x :: L) n L1) (hx : x.lex = .mark ch!"$") : ∃ d a k b, n = .math d a k b := by
  cases h <;> simp at hx
  · rename_i h; subst hx; exact absurd h (by decide)
  · exact ⟨_, _, _, _, rfl⟩

/-- Items that are ended, by whatever: ended by a dollar sign instead. -/
theorem items_ended {m u L l p L1} (h : Items m u L l p L1) (hp : p ≠ 0 ∨ L1 ≠ []) : ∃ D X, u.mark = some X.lex ∧ X.start = p ∧ L = D ++ X :: L1 ∧
    ((∀ d a k b, Node.math d a k b ∉ l) → ∀ q e Y, Items m .dollar (D ++ ⟨.mark ch!"$", q, e⟩ :: Y) l q Y) := by
  generalize hn : L.length = n
  induction n using Nat.strongRecOn generalizing L l with
  | _ n ih =>
    cases h with
    | eof => rcases hp with h | h <;> exact absurd rfl h
    | @close _ _ k o e _ hk => exact ⟨[], ⟨k, p, e⟩, hk, rfl, rfl, fun _ q e Y => .close rfl⟩
    | @item _ _ x L n1 L2 l2 _ _ hx h1 h2 =>
      obtain ⟨D, hD, e⟩ := item1_suffix h1
      have hl : L2.length < n := by
        have := congrArg List.length e
        have := List.length_pos_iff.2 hD
        simp at *
        omega
      obtain ⟨C, X, i1, i2, rfl, i4⟩ := ih _ hl h2 rfl
      refine ⟨D ++ C, X, i1, i2, by rw [e, List.append_assoc], fun hm q e' Y => ?_⟩
      have hr := i4 (fun d a k b hmem => hm d a k b (by
        rcases keep_cases n1 l2 with ⟨_, h⟩ | ⟨_, h⟩ <;> rw [h]
        · exact hmem
        · exact List.mem_cons_of_mem _ hmem)) q e' Y
      have hi := item1_after h1 (D := D) (C := C) (Z := X :: L1) (by simp) e rfl (⟨.mark ch!"$", q, e'⟩ :: Y)
      obtain ⟨x0, D0, rfl⟩ := List.exists_cons_of_ne_nil hD
      rw [List.append_assoc]
      refine .item ?_ hi hr
      intro hx0
      injection hx0 with hx0
      have hx1 : x0 = x := by
        rw [List.cons_append] at e; injection e with e; exact e.symm
      subst hx1
      have := item1_dollar h1 hx0.symm
      obtain ⟨d, a, k, b, rfl⟩ := this
      exact hm d a k b (by simp [keep])

/-! ## Moved backwards -/

theorem lexes_back {o d : Nat} {cs : List Ch} {L : List Lexed} (h : Lexes U (o + d) cs L) : ∃ L', L = L'.map (Lexed.mv d) ∧ Lexes U o cs L' := by
  generalize ho : o + d = o' at h
  induction h generalizing o with
  | done hw => exact ⟨[], rfl, .done hw⟩
  | @more o1 w a k rest L hw ha _ ih =>
    subst ho
    obtain ⟨L', rfl, h⟩ := ih (o := o + (bytesOf w).length + (bytesOf a).length) (by omega)
    refine ⟨⟨k, o + (bytesOf w).length, o + (bytesOf w).length + (bytesOf a).length⟩ :: L', ?_, .more hw ha h⟩
    simp only [List.map_cons, Lexed.mv]
    congr 2 <;> omega

theorem map_cons_back {d : Nat} {x : Lexed} {L L0 : List Lexed} (h : L0.map (Lexed.mv d) = x :: L) : ∃ x' L', L0 = x' :: L' ∧ x = x'.mv d ∧ L = L'.map (Lexed.mv d) := by
  cases L0 with
  | nil => cases h
  | cons x' L' =>
    simp only [List.map_cons, List.cons.injEq] at h
    exact ⟨x', L', rfl, h.1.symm, h.2.symm⟩

theorem mv_eq {d : Nat} {k : Lex} {o e : Nat} {x : Lexed} (h : (⟨k, o, e⟩ : Lexed) = x.mv d) : x = ⟨k, x.start, x.stop⟩ ∧ o = x.start + d ∧ e = x.stop + d := by
  obtain ⟨k', o', e'⟩ := x
  simp only [Lexed.mv, Lexed.mk.injEq] at h
  obtain ⟨rfl, rfl, rfl⟩ := h
  exact ⟨rfl, rfl, rfl⟩

theorem item1_back {m L n L1} (h : Item1 m L n L1) (d : Nat) : ∀ L0, (∀ x ∈ L0, 0 < x.start) → L0.map (Lexed.mv d) = L →
    ∃ n' L1', n = shift d n' ∧ L1 = L1'.map (Lexed.mv d) ∧ Item1 m L0 n' L1' := by
  refine Item1.rec (motive_1 := fun m L n L1 _ => ∀ L0, (∀ x ∈ L0, 0 < x.start) → L0.map (Lexed.mv d) = L →
      ∃ n' L1', n = shift d n' ∧ L1 = L1'.map (Lexed.mv d) ∧ Item1 m L0 n' L1')
    (motive_2 := fun m u L l p L1 _ => ∀ L0, (∀ x ∈ L0, 0 < x.start) → L0.map (Lexed.mv d) = L →
      ∃ l' p' L1', l = shiftL d l' ∧ p = mvEnd d p' ∧ L1 = L1'.map (Lexed.mv d) ∧ Items m u L0 l' p' L1')
    (motive_3 := fun m n L l L1 _ => ∀ L0, (∀ x ∈ L0, 0 < x.start) → L0.map (Lexed.mv d) = L →
      ∃ l' L1', l = shiftL d l' ∧ L1 = L1'.map (Lexed.mv d) ∧ Args m n L0 l' L1')
    ?_ ?_ ?_ ?_ ?_ ?_ ?_ ?_ ?_ ?_ ?_ ?_ ?_ ?_ ?_ ?_ ?_ ?_ ?_ h
  · intro m t o e L L0 hp h0
    obtain ⟨x, L', rfl, hx, rfl⟩ := map_cons_back h0
    obtain ⟨e1, rfl, rfl⟩ := mv_eq hx
    rw [e1]; exact ⟨.word x.start t, L', rfl, rfl, .word⟩
  · intro m t o e L L0 hp h0
    obtain ⟨x, L', rfl, hx, rfl⟩ := map_cons_back h0
    obtain ⟨e1, rfl, rfl⟩ := mv_eq hx
    rw [e1]; exact ⟨.lit x.start t, L', rfl, rfl, .number⟩
  · intro m o e L L0 hp h0
    obtain ⟨x, L', rfl, hx, rfl⟩ := map_cons_back h0
    obtain ⟨e1, rfl, rfl⟩ := mv_eq hx
    rw [e1]; exact ⟨.nil, L', rfl, rfl, .comment⟩
  · intro t o e L L0 hp h0
    obtain ⟨x, L', rfl, hx, rfl⟩ := map_cons_back h0
    obtain ⟨e1, rfl, rfl⟩ := mv_eq hx
    rw [e1]; exact ⟨.sym x.start t, L', rfl, rfl, .blank⟩
  · intro t o e L L0 hp h0
    obtain ⟨x, L', rfl, hx, rfl⟩ := map_cons_back h0
    obtain ⟨e1, rfl, rfl⟩ := mv_eq hx
    rw [e1]; exact ⟨.nil, L', rfl, rfl, .mathBlank⟩
  · intro m c o e L hc L0 hp h0
    obtain ⟨x, L', rfl, hx, rfl⟩ := map_cons_back h0
    obtain ⟨e1, rfl, rfl⟩ := mv_eq hx
    rw [e1]; exact ⟨.sym x.start [c], L', rfl, rfl, .symbol hc⟩
  · intro m o e L l p L' _ ih L0 hp h0
    obtain ⟨x, L', rfl, hx, rfl⟩ := map_cons_back h0
    obtain ⟨e1, rfl, rfl⟩ := mv_eq hx
    obtain ⟨l', p', L1', rfl, rfl, rfl, h⟩ := ih _ (fun y hy => hp y (by simp [hy])) rfl
    rw [e1]; exact ⟨.math bs!"$" x.start l' p', L1', rfl, rfl, .math h⟩
  · intro o e L l p L' _ ih L0 hp h0
    obtain ⟨x, L', rfl, hx, rfl⟩ := map_cons_back h0
    obtain ⟨e1, rfl, rfl⟩ := mv_eq hx
    obtain ⟨l', p', L1', rfl, rfl, rfl, h⟩ := ih _ (fun y hy => hp y (by simp [hy])) rfl
    rw [e1]; exact ⟨.list l', L1', rfl, rfl, .group h⟩
  · intro m o e e' L l p L' _ ih L0 hp h0
    obtain ⟨x, L', rfl, hx, h0⟩ := map_cons_back h0
    obtain ⟨x2, L', rfl, hx2, rfl⟩ := map_cons_back h0.symm
    obtain ⟨e1, rfl, rfl⟩ := mv_eq hx
    obtain ⟨e2, e3, rfl⟩ := mv_eq hx2
    obtain ⟨l', p', L1', rfl, rfl, rfl, h⟩ := ih _ (fun y hy => hp y (by simp [hy])) rfl
    have e4 : x2.start = x.stop := by omega
    rw [e1, e2, e4]; exact ⟨.sup x.start (.list l'), L1', rfl, rfl, .supGroup h⟩
  · intro m o e L n L' _ ih L0 hp h0
    obtain ⟨x, L', rfl, hx, rfl⟩ := map_cons_back h0
    obtain ⟨e1, rfl, rfl⟩ := mv_eq hx
    obtain ⟨n', L1', rfl, rfl, h⟩ := ih _ (fun y hy => hp y (by simp [hy])) rfl
    rw [e1]; exact ⟨.sup x.start n', L1', rfl, rfl, .sup h⟩
  · intro m o e e' L l p L' _ ih L0 hp h0
    obtain ⟨x, L', rfl, hx, h0⟩ := map_cons_back h0
    obtain ⟨x2, L', rfl, hx2, rfl⟩ := map_cons_back h0.symm
    obtain ⟨e1, rfl, rfl⟩ := mv_eq hx
    obtain ⟨e2, e3, rfl⟩ := mv_eq hx2
    obtain ⟨l', p', L1', rfl, rfl, rfl, h⟩ := ih _ (fun y hy => hp y (by simp [hy])) rfl
    have e4 : x2.start = x.stop := by omega
    rw [e1, e2, e4]; exact ⟨.sub x.start (.list l'), L1', rfl, rfl, .subGroup h⟩
  · intro m o e L n L' _ ih L0 hp h0
    obtain ⟨x, L', rfl, hx, rfl⟩ := map_cons_back h0
    obtain ⟨e1, rfl, rfl⟩ := mv_eq hx
    obtain ⟨n', L1', rfl, rfl, h⟩ := ih _ (fun y hy => hp y (by simp [hy])) rfl
    rw [e1]; exact ⟨.sub x.start n', L1', rfl, rfl, .sub h⟩
  · intro m o e e' L l p L1 args L' h1 h2 ih1 ih2 L0 hp h0
    obtain ⟨x, L', rfl, hx, h0⟩ := map_cons_back h0
    obtain ⟨x2, L', rfl, hx2, rfl⟩ := map_cons_back h0.symm
    obtain ⟨e1, rfl, rfl⟩ := mv_eq hx
    obtain ⟨e2, e3, rfl⟩ := mv_eq hx2
    obtain ⟨l', p', L1', rfl, rfl, rfl, g1⟩ := ih1 _ (fun y hy => hp y (by simp [hy])) rfl
    obtain ⟨D, rfl⟩ := items_suffix g1
    obtain ⟨a', L2', rfl, rfl, g2⟩ := ih2 L1' (fun y hy => hp y (by simp [hy])) rfl
    have e4 : x2.start = x.stop := by omega
    rw [e1, e2, e4]
    exact ⟨.macro (some (x.start, bs!"\\sqrt")) (.optArg x.stop l' p' :: a'), L2', rfl, rfl, .root g1 g2⟩
  · intro m t o e L args L' hk h1 hh ih L0 hp h0
    obtain ⟨x, L', rfl, hx, rfl⟩ := map_cons_back h0
    obtain ⟨e1, rfl, rfl⟩ := mv_eq hx
    obtain ⟨l', L1', rfl, rfl, h⟩ := ih _ (fun y hy => hp y (by simp [hy])) rfl
    rw [e1]
    refine ⟨.macro (some (x.start, t)) l', L1', rfl, rfl, .macro hk h fun ht e' he => ?_⟩
    cases L' with
    | nil => cases he
    | cons y L' =>
      cases he
      exact hh ht (e' + d) rfl
  · intro m u L0 hp h0
    obtain rfl := List.map_eq_nil_iff.1 h0
    exact ⟨[], 0, [], rfl, rfl, rfl, .eof⟩
  · intro m u k o e L hk L0 hp h0
    obtain ⟨x, L', rfl, hx, rfl⟩ := map_cons_back h0
    obtain ⟨e1, rfl, rfl⟩ := mv_eq hx
    have : 0 < x.start := hp _ (by simp)
    rw [e1]
    exact ⟨[], x.start, L', rfl, (if_neg (by omega)).symm, rfl, .close hk⟩
  · intro m u x L n L1 l p L' hx h1 h2 ih1 ih2 L0 hp h0
    obtain ⟨n', L1', rfl, rfl, g1⟩ := ih1 L0 hp h0
    obtain ⟨D, -, e⟩ := item1_suffix g1
    obtain ⟨l', p', L2', rfl, rfl, rfl, g2⟩ := ih2 L1' (fun y hy => hp y (by rw [e]; simp [hy])) rfl
    obtain ⟨x', L', rfl, rfl, rfl⟩ := map_cons_back h0
    exact ⟨keep n' l', p', L2', (shiftL_keep d n' l').symm, rfl, rfl, .item hx g1 g2⟩
  · intro m L L0 hp h0
    exact ⟨[], L0, rfl, h0.symm, .done⟩
  · intro m n o e L l p L1 args L' h1 h2 ih1 ih2 L0 hp h0
    obtain ⟨x, L', rfl, hx, rfl⟩ := map_cons_back h0
    obtain ⟨e1, rfl, rfl⟩ := mv_eq hx
    obtain ⟨l', p', L1', rfl, rfl, rfl, g1⟩ := ih1 _ (fun y hy => hp y (by simp [hy])) rfl
    obtain ⟨D, rfl⟩ := items_suffix g1
    obtain ⟨a', L2', rfl, rfl, g2⟩ := ih2 L1' (fun y hy => hp y (by simp [hy])) rfl
    rw [e1]
    exact ⟨.arg x.start l' p' :: a', L2', rfl, rfl, .more g1 g2⟩

theorem items_back {m u L l p L1} (h : Items m u L l p L1) (d : Nat) : ∀ L0, (∀ x ∈ L0, 0 < x.start) → L0.map (Lexed.mv d) = L →
    ∃ l' p' L1', l = shiftL d l' ∧ p = mvEnd d p' ∧ L1 = L1'.map (Lexed.mv d) ∧ Items m u L0 l' p' L1' := by
  intro L0 hp h0
  generalize hn : L.length = n
  induction n using Nat.strongRecOn generalizing L L0 l with
  | _ n ih =>
    cases h with
    | eof =>
      obtain rfl := List.map_eq_nil_iff.1 h0
      exact ⟨[], 0, [], rfl, rfl, rfl, .eof⟩
    | @close _ _ k o e _ hk =>
      obtain ⟨x, L', rfl, hx, rfl⟩ := map_cons_back h0
      obtain ⟨e1, e2, rfl⟩ := mv_eq hx
      have : 0 < x.start := hp _ (by simp)
      rw [e1, e2]
      exact ⟨[], x.start, L', rfl, (if_neg (by omega)).symm, rfl, .close hk⟩
    | @item _ _ x L n1 L2 l2 _ _ hx h1 h2 =>
      obtain ⟨n', L1', rfl, rfl, g1⟩ := item1_back h1 d L0 hp h0
      obtain ⟨D, hD, e⟩ := item1_suffix g1
      obtain ⟨l', p', L2', rfl, rfl, rfl, g2⟩ := ih _ (by
        have h3 := congrArg List.length e
        have h4 := congrArg List.length h0
        have := List.length_pos_iff.2 hD
        simp at *
        omega) h2 L1' (fun y hy => hp y (by rw [e]; simp [hy])) rfl rfl
      obtain ⟨x', L', rfl, rfl, rfl⟩ := map_cons_back h0
      exact ⟨keep n' l', p', L2', (shiftL_keep d n' l').symm, rfl, rfl, .item hx g1 g2⟩

end Verif
