import Verif.Spec.Ship
/-! # Lemmas on shipping -/

namespace Verif
variable {F : Type} [GoFloat F]
open GoFloat Spec

/-- Induction on trees. -/
theorem tnode_ind {P : TNode F → Prop} (leaf : ∀ n, (∀ k hd cs, n ≠ .list k hd cs) → P n)
    (list : ∀ k hd cs, (∀ c ∈ cs, P c) → P (.list k hd cs)) : ∀ n, P n := by
  have := @TNode.rec F P (fun l => ∀ c ∈ l, P c)
    (fun b => leaf _ (by simp)) (fun b => leaf _ (by simp)) (fun b => leaf _ (by simp))
    (fun k hd cs h => list k hd cs h) (fun b => leaf _ (by simp)) (fun b => leaf _ (by simp)) (fun b => leaf _ (by simp))
    (by simp) (by intro n l hn hl c hc; rcases List.mem_cons.1 hc with rfl | hc; exacts [hn, hl c hc])
  exact this

theorem res_bind_ok {α β : Type} {r : Res α} {f : α → Res β} {b : β} (h : (r >>= f) = .ok b) :
    ∃ a, r = .ok a ∧ f a = .ok b := by
  cases r with
  | ok a => exact ⟨a, rfl, h⟩
  | panic e => cases h
  | fuel => cases h

theorem hLoop_cons {o : Off F} {hd : LHead F} {base : F} {n : TNode F} {l : List (TNode F)} {q : GlueSt F} {st st' : ShipSt F}
    {l' : List (TNode F)} (h : hLoop o hd base (n :: l) q st = .ok (st', l')) :
    ∃ st1 n1 q1 l1, hNode o hd base n q st = .ok (st1, n1, q1) ∧ hLoop o hd base l q1 st1 = .ok (st', l1) ∧ l' = n1 :: l1 := by
  rw [hLoop] at h
  obtain ⟨⟨st1, n1, q1⟩, h1, h⟩ := res_bind_ok h
  obtain ⟨⟨st2, l1⟩, h2, h⟩ := res_bind_ok h
  cases h
  exact ⟨st1, n1, q1, l1, h1, h2, rfl⟩

theorem vLoop_cons {o : Off F} {hd : LHead F} {base : F} {n : TNode F} {l : List (TNode F)} {q : GlueSt F} {st st' : ShipSt F}
    {l' : List (TNode F)} (h : vLoop o hd base (n :: l) q st = .ok (st', l')) :
    ∃ st1 n1 q1 l1, vNode o hd base n q st = .ok (st1, n1, q1) ∧ vLoop o hd base l q1 st1 = .ok (st', l1) ∧ l' = n1 :: l1 := by
  rw [vLoop] at h
  obtain ⟨⟨st1, n1, q1⟩, h1, h⟩ := res_bind_ok h
  obtain ⟨⟨st2, l1⟩, h2, h⟩ := res_bind_ok h
  cases h
  exact ⟨st1, n1, q1, l1, h1, h2, rfl⟩

theorem hLoop_cons_eq {o : Off F} {hd : LHead F} {base : F} {n n1 : TNode F} {l l1 : List (TNode F)} {q q1 : GlueSt F}
    {st st1 st' : ShipSt F} (h1 : hNode o hd base n q st = .ok (st1, n1, q1)) (h2 : hLoop o hd base l q1 st1 = .ok (st', l1)) :
    hLoop o hd base (n :: l) q st = .ok (st', n1 :: l1) := by
  rw [hLoop, h1]; simp only [Res.ok_bind]; rw [h2]; rfl

theorem vLoop_cons_eq {o : Off F} {hd : LHead F} {base : F} {n n1 : TNode F} {l l1 : List (TNode F)} {q q1 : GlueSt F}
    {st st1 st' : ShipSt F} (h1 : vNode o hd base n q st = .ok (st1, n1, q1)) (h2 : vLoop o hd base l q1 st1 = .ok (st', l1)) :
    vLoop o hd base (n :: l) q st = .ok (st', n1 :: l1) := by
  rw [vLoop, h1]; simp only [Res.ok_bind]; rw [h2]; rfl

/-- What happened between two states while something of nesting depth `k` was drawn by the operations
`l`: the glyphs `gs` and rectangles of the sizes `bs`. -/
structure Out (st st' : ShipSt F) (k : Nat) (gs : List (Font F × GoString × F)) (bs : List (F × F)) (l : List (Draw F)) : Prop where
  ops : st'.ops = st.ops ++ l
  s : st'.s = st.s
  push : st.s ≤ st.maxPush → st'.maxPush = Max.max st.maxPush (st.s + k)
  glyph : l.filterMap opGlyph = gs
  rect : List.Forall₂ Sized (l.filterMap opRect) bs

theorem nat_max_cast (a b : Nat) (s m : Int) : Max.max (Max.max m (s + a)) (s + b) = Max.max m (s + (Nat.max a b : Nat)) := by
  simp only [Nat.max_def]
  split <;> omega

theorem Out.cons {st st1 st' : ShipSt F} {k1 k2 : Nat} {g1 g2 b1 b2} {l1 l2 : List (Draw F)}
    (h1 : Out st st1 k1 g1 b1 l1) (h2 : Out st1 st' k2 g2 b2 l2) : Out st st' (Nat.max k1 k2) (g1 ++ g2) (b1 ++ b2) (l1 ++ l2) := by
  refine ⟨by rw [h2.ops, h1.ops, List.append_assoc], h2.s.trans h1.s, ?_, ?_, ?_⟩
  · intro h
    have e1 := h1.push h
    rw [h2.push (by rw [h1.s, e1]; omega), e1, h1.s, nat_max_cast]
  · rw [List.filterMap_append, h1.glyph, h2.glyph]
  · rw [List.filterMap_append]; exact List.rel_append h1.rect h2.rect

/-- nothing is drawn -/
theorem Out.skip {st st' : ShipSt F} {k : Nat} {gs bs} (ho : st'.ops = st.ops) (hs : st'.s = st.s) (hp : st'.maxPush = st.maxPush)
    (hk : k = 0) (hg : gs = []) (hb : bs = []) : Out st st' k gs bs [] := by
  subst hk hg hb
  exact ⟨by simp [ho], hs, fun h => by simp [hp]; omega, rfl, .nil⟩

theorem Out.glyph1 {st st' : ShipSt F} {k : Nat} {gs bs} {op : Draw F} (g : Font F × GoString × F)
    (ho : st'.ops = st.ops ++ [op]) (hs : st'.s = st.s) (hp : st'.maxPush = st.maxPush)
    (hk : k = 0) (hg : gs = [g]) (hb : bs = []) (hop : opGlyph op = some g)
    (hr : opRect op = none) : Out st st' k gs bs [op] := by
  subst hk hg hb
  exact ⟨ho, hs, fun h => by simp [hp]; omega, by simp [hop], by simp [hr]⟩

theorem Out.rect1 {st st' : ShipSt F} {k : Nat} {gs bs} {op : Draw F} (x y w h : F)
    (ho : st'.ops = st.ops ++ [op]) (hs : st'.s = st.s) (hp : st'.maxPush = st.maxPush)
    (hk : k = 0) (hg : gs = []) (hb : bs = [(w, h)]) (hop : op = renderRule x y w h) : Out st st' k gs bs [op] := by
  subst hk hg hb hop
  exact ⟨ho, hs, fun h => by simp [hp]; omega, by simp [opGlyph, renderRule], by simp [opRect, renderRule, Sized]⟩

theorem Out.inner {st st0 st1 st' : ShipSt F} {k : Nat} {gs bs} {l : List (Draw F)}
    (h : Out st0.push st1 k gs bs l) (h0 : st0.ops = st.ops) (h1 : st0.s = st.s)
    (h2 : st0.maxPush = st.maxPush) (e0 : st'.ops = st1.ops) (e1 : st'.s = st1.s - 1) (e2 : st'.maxPush = st1.maxPush) :
    Out st st' (k + 1) gs bs l := by
  refine ⟨?_, ?_, ?_, h.glyph, h.rect⟩
  · rw [e0, h.ops]; simp [ShipSt.push, h0]
  · rw [e1, h.s]; simp [ShipSt.push, h1]
  · intro hle
    rw [e2, h.push (by simp only [ShipSt.push, maxInt]; split <;> omega)]
    simp only [ShipSt.push, maxInt, h1, h2]
    split <;> omega

/-- The result of a node does not depend on what was drawn before nor on the counters. -/
def RunH (o : Off F) (n : TNode F) : Prop :=
  ∀ hd base q st st' n' q', hNode o hd base n q st = .ok (st', n', q') →
    n' = settleH n ∧ ∃ l, Out st st' (nesting n) (glyphs n) (barsH hd.box.height n) l ∧
      ∀ st2 : ShipSt F, st2.h = st.h → st2.v = st.v →
        ∃ st2', hNode o hd base n q st2 = .ok (st2', n', q') ∧ st2'.h = st'.h ∧ st2'.v = st'.v ∧ st2'.ops = st2.ops ++ l

/-- The same in a vertical list. -/
def RunV (o : Off F) (n : TNode F) : Prop :=
  ∀ hd base q st st' n' q', vNode o hd base n q st = .ok (st', n', q') →
    n' = settleV hd.box.width n ∧ ∃ l, Out st st' (nesting n) (glyphs n) (barsV hd.box.width n) l ∧
      ∀ st2 : ShipSt F, st2.h = st.h → st2.v = st.v →
        ∃ st2', vNode o hd base n q st2 = .ok (st2', n', q') ∧ st2'.h = st'.h ∧ st2'.v = st'.v ∧ st2'.ops = st2.ops ++ l

theorem runHs {o : Off F} {cs : List (TNode F)} (ih : ∀ c ∈ cs, RunH o c) (hd : LHead F) (base : F) (q : GlueSt F) (st st' : ShipSt F)
    (cs' : List (TNode F)) (h : hLoop o hd base cs q st = .ok (st', cs')) :
    cs' = settleHs cs ∧ ∃ l, Out st st' (nestingAll cs) (glyphsAll cs) (barsHs hd.box.height cs) l ∧
      ∀ st2 : ShipSt F, st2.h = st.h → st2.v = st.v →
        ∃ st2', hLoop o hd base cs q st2 = .ok (st2', cs') ∧ st2'.h = st'.h ∧ st2'.v = st'.v ∧ st2'.ops = st2.ops ++ l := by
  induction cs generalizing q st cs' with
  | nil => rw [hLoop] at h; cases h; exact ⟨rfl, [], .skip rfl rfl rfl (by simp [nestingAll]) (by simp [glyphsAll]) (by simp [barsHs, barsVs]), fun st2 h1 h2 => ⟨st2, by rw [hLoop], h1, h2, by simp⟩⟩
  | cons n l ihl =>
    obtain ⟨st1, n1, q1, l1, e1, e2, rfl⟩ := hLoop_cons h
    obtain ⟨en, d1, o1, f1⟩ := ih n List.mem_cons_self _ _ _ _ _ _ _ e1
    obtain ⟨el, d2, o2, f2⟩ := ihl (fun c hc => ih c (List.mem_cons_of_mem _ hc)) _ _ _ e2
    refine ⟨by rw [settleHs, en, el], d1 ++ d2, o1.cons o2, fun st2 h1 h2 => ?_⟩
    obtain ⟨s1, r1, a1, b1, c1⟩ := f1 st2 h1 h2
    obtain ⟨s2, r2, a2, b2, c2⟩ := f2 s1 a1 b1
    exact ⟨s2, hLoop_cons_eq r1 r2, a2, b2, by rw [c2, c1, List.append_assoc]⟩

theorem runVs {o : Off F} {cs : List (TNode F)} (ih : ∀ c ∈ cs, RunV o c) (hd : LHead F) (base : F) (q : GlueSt F) (st st' : ShipSt F)
    (cs' : List (TNode F)) (h : vLoop o hd base cs q st = .ok (st', cs')) :
    cs' = settleVs hd.box.width cs ∧ ∃ l, Out st st' (nestingAll cs) (glyphsAll cs) (barsVs hd.box.width cs) l ∧
      ∀ st2 : ShipSt F, st2.h = st.h → st2.v = st.v →
        ∃ st2', vLoop o hd base cs q st2 = .ok (st2', cs') ∧ st2'.h = st'.h ∧ st2'.v = st'.v ∧ st2'.ops = st2.ops ++ l := by
  induction cs generalizing q st cs' with
  | nil => rw [vLoop] at h; cases h; exact ⟨rfl, [], .skip rfl rfl rfl (by simp [nestingAll]) (by simp [glyphsAll]) (by simp [barsHs, barsVs]), fun st2 h1 h2 => ⟨st2, by rw [vLoop], h1, h2, by simp⟩⟩
  | cons n l ihl =>
    obtain ⟨st1, n1, q1, l1, e1, e2, rfl⟩ := vLoop_cons h
    obtain ⟨en, d1, o1, f1⟩ := ih n List.mem_cons_self _ _ _ _ _ _ _ e1
    obtain ⟨el, d2, o2, f2⟩ := ihl (fun c hc => ih c (List.mem_cons_of_mem _ hc)) _ _ _ e2
    refine ⟨by rw [settleVs, en, el], d1 ++ d2, o1.cons o2, fun st2 h1 h2 => ?_⟩
    obtain ⟨s1, r1, a1, b1, c1⟩ := f1 st2 h1 h2
    obtain ⟨s2, r2, a2, b2, c2⟩ := f2 s1 a1 b1
    exact ⟨s2, vLoop_cons_eq r1 r2, a2, b2, by rw [c2, c1, List.append_assoc]⟩

theorem run_leaf (o : Off F) (n : TNode F) (hn : ∀ k hd cs, n ≠ .list k hd cs) : RunH o n ∧ RunV o n := by
  constructor
  · intro hd base q st st' n' q' h
    cases n with
    | list k hd cs => exact absurd rfl (hn k hd cs)
    | char c =>
      rw [hNode] at h; cases h
      exact ⟨rfl, _, .glyph1 _ rfl rfl rfl (by simp [nesting]) (by rw [glyphs]) (by simp [barsH]) rfl rfl, fun st2 h1 h2 => by
        refine ⟨?w1, ?h1, ?_⟩
        case h1 => rw [hNode]
        exact ⟨by simp [h1], h2, by simp [h1, h2]⟩⟩
    | accent c =>
      rw [hNode] at h; cases h
      exact ⟨rfl, _, .glyph1 _ rfl rfl rfl (by simp [nesting]) (by rw [glyphs]) (by simp [barsH]) rfl rfl, fun st2 h1 h2 => by
        refine ⟨?w2, ?h2, ?_⟩
        case h2 => rw [hNode]
        exact ⟨by simp [h1], h2, by simp [h1, h2]⟩⟩
    | kern k =>
      rw [hNode] at h; cases h
      exact ⟨rfl, _, .skip rfl rfl rfl (by simp [nesting]) (by simp [glyphs, glyphsAll]) (by simp [barsH, barsV, barsHs, barsVs, *]), fun st2 h1 h2 => by
        refine ⟨?w3, ?h3, ?_⟩
        case h3 => rw [hNode]
        exact ⟨by simp [h1], h2, by simp⟩⟩
    | glue k =>
      rw [hNode] at h; cases h
      exact ⟨rfl, _, .skip rfl rfl rfl (by simp [nesting]) (by simp [glyphs, glyphsAll]) (by simp [barsH, barsV, barsHs, barsVs, *]), fun st2 h1 h2 => by
        refine ⟨?w4, ?h4, ?_⟩
        case h4 => rw [hNode]
        exact ⟨by simp [h1], h2, by simp⟩⟩
    | box b =>
      rw [hNode] at h
      by_cases hc : (pos (if isInf b.height then hd.box.height else b.height) && pos b.width) = true <;>
        [rw [if_pos hc] at h; rw [if_neg hc] at h]
      · cases h
      · cases h
        refine ⟨rfl, _, .skip rfl rfl rfl (by simp [nesting]) (by simp [glyphs, glyphsAll]) (by simp [barsH, barsV, barsHs, barsVs, *]), fun st2 h1 h2 => by
        refine ⟨?w5, ?h5, ?_⟩
        case h5 => rw [hNode, if_neg ‹_›]
        exact ⟨by simp [h1], h2, by simp⟩⟩
    | rule b =>
      rw [hNode] at h
      by_cases hc : (pos (if isInf b.height then hd.box.height else b.height) && pos b.width) = true <;>
        [rw [if_pos hc] at h; rw [if_neg hc] at h]
      · cases h
        refine ⟨rfl, _, .rect1 _ _ _ _ rfl rfl rfl (by simp [nesting]) (by simp [glyphs]) (by first | rw [barsH, if_pos ‹_›] | rw [barsV, if_pos ‹_›]) rfl,
          fun st2 h1 h2 => by
        refine ⟨?w6, ?h6, ?_⟩
        case h6 => rw [hNode, if_pos ‹_›]
        exact ⟨by simp [h1], rfl, by simp [h1]⟩⟩
      · cases h
        refine ⟨rfl, _, .skip rfl rfl rfl (by simp [nesting]) (by simp [glyphs, glyphsAll]) (by simp [barsH, barsV, barsHs, barsVs, *]), fun st2 h1 h2 => by
        refine ⟨?w7, ?h7, ?_⟩
        case h7 => rw [hNode, if_neg ‹_›]
        exact ⟨by simp [h1], h2, by simp⟩⟩
  · intro hd base q st st' n' q' h
    cases n with
    | list k hd cs => exact absurd rfl (hn k hd cs)
    | char c => rw [vNode] at h; cases h
    | accent c => rw [vNode] at h; cases h
    | kern k =>
      rw [vNode] at h; cases h
      exact ⟨rfl, _, .skip rfl rfl rfl (by simp [nesting]) (by simp [glyphs, glyphsAll]) (by simp [barsH, barsV, barsHs, barsVs, *]), fun st2 h1 h2 => by
        refine ⟨?w8, ?h8, ?_⟩
        case h8 => rw [vNode]
        exact ⟨h1, by simp [h2], by simp⟩⟩
    | glue k =>
      rw [vNode] at h; cases h
      exact ⟨rfl, _, .skip rfl rfl rfl (by simp [nesting]) (by simp [glyphs, glyphsAll]) (by simp [barsH, barsV, barsHs, barsVs, *]), fun st2 h1 h2 => by
        refine ⟨?w9, ?h9, ?_⟩
        case h9 => rw [vNode]
        exact ⟨h1, by simp [h2], by simp⟩⟩
    | box b =>
      rw [vNode] at h
      split at h
      · cases h
        exact ⟨rfl, _, .skip rfl rfl rfl (by simp [nesting]) (by simp [glyphs, glyphsAll]) (by simp [barsH, barsV, barsHs, barsVs, *]), fun st2 h1 h2 => by
        refine ⟨?w10, ?h10, ?_⟩
        case h10 => rw [vNode, if_pos ‹_›]
        exact ⟨h1, by simp [h2], by simp⟩⟩
      · cases h
        exact ⟨rfl, _, .skip rfl rfl rfl (by simp [nesting]) (by simp [glyphs, glyphsAll]) (by simp [barsH, barsV, barsHs, barsVs, *]), fun st2 h1 h2 => by
        refine ⟨?w11, ?h11, ?_⟩
        case h11 => rw [vNode, if_neg ‹_›]
        exact ⟨h1, by simp [h2], by simp⟩⟩
    | rule b =>
      rw [vNode] at h
      split at h
      · cases h
        refine ⟨rfl, _, .rect1 _ _ _ _ rfl rfl rfl (by simp [nesting]) (by simp [glyphs]) (by first | rw [barsH, if_pos ‹_›] | rw [barsV, if_pos ‹_›]) rfl,
          fun st2 h1 h2 => by
        refine ⟨?w12, ?h12, ?_⟩
        case h12 => rw [vNode, if_pos ‹_›]
        exact ⟨h1, by simp [h2], by simp [h1, h2]⟩⟩
      · cases h
        exact ⟨rfl, _, .skip rfl rfl rfl (by simp [nesting]) (by simp [glyphs, glyphsAll]) (by simp [barsH, barsV, barsHs, barsVs, *]), fun st2 h1 h2 => by
        refine ⟨?w13, ?h13, ?_⟩
        case h13 => rw [vNode, if_neg ‹_›]
        exact ⟨h1, by simp [h2], by simp⟩⟩

theorem settle_nil : settleHs ([] : List (TNode F)) = [] := by rw [settleHs]

theorem run_all (o : Off F) (n : TNode F) : RunH o n ∧ RunV o n := by
  refine tnode_ind (P := fun n => RunH o n ∧ RunV o n) (fun n hn => run_leaf o n hn) ?_ n
  intro k nd cs ih
  have ihH : ∀ c ∈ cs, RunH o c := fun c hc => (ih c hc).1
  have ihV : ∀ c ∈ cs, RunV o c := fun c hc => (ih c hc).2
  constructor
  · intro hd base q st st' n' q' h
    cases k with
    | plain =>
      rw [hNode] at h
      by_cases hc : (pos (if isInf nd.box.height then hd.box.height else nd.box.height) && pos nd.box.width) = true <;>
        [rw [if_pos hc] at h; rw [if_neg hc] at h]
      · cases h
      · cases h
        exact ⟨rfl, _, .skip rfl rfl rfl (by simp [nesting]) (by simp [glyphs, glyphsAll]) (by simp [barsH, barsV, barsHs, barsVs, *]), fun st2 h1 h2 => by
        refine ⟨?w14, ?h14, ?_⟩
        case h14 => rw [hNode, if_neg ‹_›]
        exact ⟨by simp [h1], h2, by simp⟩⟩
    | h =>
      rw [hNode] at h
      cases he : cs.isEmpty with
      | true =>
        rw [if_pos he] at h; cases h
        have : cs = [] := List.isEmpty_iff.1 he
        subst this
        refine ⟨by rw [settleH, settleHs], _, .skip rfl rfl rfl (by simp [nesting]) (by simp [glyphs, glyphsAll]) (by simp [barsH, barsV, barsHs, barsVs, *]),
          fun st2 h1 h2 => by
        refine ⟨?w15, ?h15, ?_⟩
        case h15 => rw [hNode, if_pos he]
        exact ⟨by simp [h1], h2, by simp⟩⟩
      | false =>
        rw [if_neg (by simp [he])] at h
        obtain ⟨⟨s1, cs1⟩, e1, h⟩ := res_bind_ok h
        cases h
        obtain ⟨ec, l, ho, hf⟩ := runHs ihH _ _ _ _ _ _ e1
        refine ⟨by rw [settleH, ec], l, by (rw [nesting, if_neg (by simp [he]), glyphs]; first | rw [barsH] | rw [barsV]); exact .inner ho rfl rfl rfl rfl rfl rfl, fun st2 h1 h2 => ?_⟩
        obtain ⟨s2, r1, _, _, c⟩ := hf { st2 with v := base + nd.shift }.push h1 rfl
        refine ⟨{ s2.pop with h := st2.h + nd.box.width, v := base }, by rw [hNode, if_neg (by simp [he]), r1]; rfl, by simp [h1], rfl, c⟩
    | v =>
      rw [hNode] at h
      cases he : cs.isEmpty with
      | true =>
        rw [if_pos he] at h; cases h
        have : cs = [] := List.isEmpty_iff.1 he
        subst this
        refine ⟨by rw [settleH, settleVs], _, .skip rfl rfl rfl (by simp [nesting]) (by simp [glyphs, glyphsAll]) (by simp [barsH, barsV, barsHs, barsVs, *]),
          fun st2 h1 h2 => by
        refine ⟨?w16, ?h16, ?_⟩
        case h16 => rw [hNode, if_pos he]
        exact ⟨by simp [h1], h2, by simp⟩⟩
      | false =>
        rw [if_neg (by simp [he])] at h
        obtain ⟨⟨s1, cs1⟩, e1, h⟩ := res_bind_ok h
        cases h
        obtain ⟨ec, l, ho, hf⟩ := runVs ihV _ _ _ _ _ _ e1
        refine ⟨by rw [settleH, ec], l, by (rw [nesting, if_neg (by simp [he]), glyphs]; first | rw [barsH] | rw [barsV]); exact .inner ho rfl rfl rfl rfl rfl rfl, fun st2 h1 h2 => ?_⟩
        obtain ⟨s2, r1, _, _, c⟩ := hf { st2 with v := base + nd.shift - nd.box.height }.push h1 rfl
        refine ⟨{ s2.pop with h := st2.h + nd.box.width, v := base }, by rw [← h1] at r1; rw [hNode, if_neg (by simp [he]), r1]; rfl, by simp [h1], rfl, c⟩
  · intro hd base q st st' n' q' h
    cases k with
    | plain =>
      rw [vNode] at h
      split at h
      · cases h
        exact ⟨rfl, _, .skip rfl rfl rfl (by simp [nesting]) (by simp [glyphs, glyphsAll]) (by simp [barsH, barsV, barsHs, barsVs, *]), fun st2 h1 h2 => by
        refine ⟨?w17, ?h17, ?_⟩
        case h17 => rw [vNode, if_pos ‹_›]
        exact ⟨h1, by simp [h2], by simp⟩⟩
      · cases h
        exact ⟨rfl, _, .skip rfl rfl rfl (by simp [nesting]) (by simp [glyphs, glyphsAll]) (by simp [barsH, barsV, barsHs, barsVs, *]), fun st2 h1 h2 => by
        refine ⟨?w18, ?h18, ?_⟩
        case h18 => rw [vNode, if_neg ‹_›]
        exact ⟨h1, by simp [h2], by simp⟩⟩
    | h =>
      rw [vNode] at h
      cases he : cs.isEmpty with
      | true =>
        rw [if_pos he] at h; cases h
        have : cs = [] := List.isEmpty_iff.1 he
        subst this
        refine ⟨by rw [settleV, if_pos he], _, .skip rfl rfl rfl (by simp [nesting]) (by simp [glyphs, glyphsAll]) (by simp [barsH, barsV, barsHs, barsVs, *]),
          fun st2 h1 h2 => by
        refine ⟨?w19, ?h19, ?_⟩
        case h19 => rw [vNode, if_pos he]
        exact ⟨h1, by simp [h2], by simp⟩⟩
      | false =>
        rw [if_neg (by simp [he])] at h
        obtain ⟨⟨s1, cs1⟩, e1, h⟩ := res_bind_ok h
        cases h
        obtain ⟨ec, l, ho, hf⟩ := runHs ihH _ _ _ _ _ _ e1
        refine ⟨by rw [settleV, if_neg (by simp [he]), ec], l, by (rw [nesting, if_neg (by simp [he]), glyphs]; first | rw [barsH] | rw [barsV]); exact .inner ho rfl rfl rfl rfl rfl rfl, fun st2 h1 h2 => ?_⟩
        obtain ⟨s2, r1, _, _, c⟩ := hf { st2 with v := st.v + nd.box.height, h := base + nd.shift }.push rfl rfl
        refine ⟨{ s2.pop with v := st.v + nd.box.height + nd.box.depth, h := base }, by rw [vNode, if_neg (by simp [he])]; simp only [h2]; rw [r1]; rfl, rfl, rfl, c⟩
    | v =>
      rw [vNode] at h
      cases he : cs.isEmpty with
      | true =>
        rw [if_pos he] at h; cases h
        have : cs = [] := List.isEmpty_iff.1 he
        subst this
        refine ⟨by rw [settleV, if_pos he], _, .skip rfl rfl rfl (by simp [nesting]) (by simp [glyphs, glyphsAll]) (by simp [barsH, barsV, barsHs, barsVs, *]),
          fun st2 h1 h2 => by
        refine ⟨?w20, ?h20, ?_⟩
        case h20 => rw [vNode, if_pos he]
        exact ⟨h1, by simp [h2], by simp⟩⟩
      | false =>
        rw [if_neg (by simp [he])] at h
        obtain ⟨⟨s1, cs1⟩, e1, h⟩ := res_bind_ok h
        cases h
        obtain ⟨ec, l, ho, hf⟩ := runVs ihV _ _ _ _ _ _ e1
        refine ⟨by rw [settleV, if_neg (by simp [he]), ec], l, by (rw [nesting, if_neg (by simp [he]), glyphs]; first | rw [barsH] | rw [barsV]); exact .inner ho rfl rfl rfl rfl rfl rfl, fun st2 h1 h2 => ?_⟩
        obtain ⟨s2, r1, _, _, c⟩ := hf { st2 with v := st.v + nd.box.height - nd.box.height, h := base + nd.shift }.push rfl rfl
        refine ⟨{ s2.pop with v := st.v + nd.box.height + nd.box.depth, h := base }, by rw [vNode, if_neg (by simp [he])]; simp only [h2]; rw [r1]; rfl, rfl, rfl, c⟩

/-! ## Shipping a shipped tree -/

theorem settleHs_empty (cs : List (TNode F)) : (settleHs cs).isEmpty = cs.isEmpty := by cases cs <;> simp [settleHs]
theorem settleVs_empty (W : F) (cs : List (TNode F)) : (settleVs W cs).isEmpty = cs.isEmpty := by cases cs <;> simp [settleVs]

/-- Drawing the settled node is the same as drawing the node. -/
def SameH (o : Off F) (n : TNode F) : Prop := ∀ hd base q st, hNode o hd base (settleH n) q st = hNode o hd base n q st
/-- The same in a vertical list. -/
def SameV (o : Off F) (n : TNode F) : Prop :=
  ∀ hd base q st, vNode o hd base (settleV hd.box.width n) q st = vNode o hd base n q st

theorem sameHs {o : Off F} {cs : List (TNode F)} (ih : ∀ c ∈ cs, SameH o c) (hd : LHead F) (base : F) (q : GlueSt F) (st : ShipSt F) :
    hLoop o hd base (settleHs cs) q st = hLoop o hd base cs q st := by
  induction cs generalizing q st with
  | nil => rw [settleHs]
  | cons n l ihl =>
    rw [settleHs, hLoop, hLoop, ih n List.mem_cons_self]
    congr 1; funext ⟨st1, n1, q1⟩
    simp only [ihl (fun c hc => ih c (List.mem_cons_of_mem _ hc))]

theorem sameVs {o : Off F} {cs : List (TNode F)} (ih : ∀ c ∈ cs, SameV o c) (hd : LHead F) (base : F) (q : GlueSt F) (st : ShipSt F) :
    vLoop o hd base (settleVs hd.box.width cs) q st = vLoop o hd base cs q st := by
  induction cs generalizing q st with
  | nil => rw [settleVs]
  | cons n l ihl =>
    rw [settleVs, vLoop, vLoop, ih n List.mem_cons_self]
    congr 1; funext ⟨st1, n1, q1⟩
    simp only [ihl (fun c hc => ih c (List.mem_cons_of_mem _ hc))]

theorem same_all (o : Off F) (n : TNode F) : SameH o n ∧ SameV o n := by
  refine tnode_ind (P := fun n => SameH o n ∧ SameV o n) (fun n hn => ?_) ?_ n
  · constructor <;> intro hd base q st <;> cases n <;> first | rfl | exact absurd rfl (hn _ _ _)
  · intro k nd cs ih
    have ihH := sameHs fun c hc => (ih c hc).1
    have ihV := sameVs fun c hc => (ih c hc).2
    constructor
    · intro hd base q st
      cases k with
      | plain => rfl
      | h => rw [settleH, hNode, hNode, settleHs_empty, ihH]; cases cs <;> simp [settleHs]
      | v => rw [settleH, hNode, hNode, settleVs_empty, ihV]; cases cs <;> simp [settleVs]
    · intro hd base q st
      cases k with
      | plain => rfl
      | h =>
        rw [settleV]
        cases he : cs.isEmpty with
        | true => rw [if_pos rfl]
        | false => rw [if_neg (by simp), vNode, vNode, settleHs_empty, he]; simp only [ihH, Bool.false_eq_true, if_false]
      | v =>
        rw [settleV]
        cases he : cs.isEmpty with
        | true => rw [if_pos rfl]
        | false =>
          rw [if_neg (by simp), vNode, vNode, settleVs_empty, he]
          simp only [Bool.false_eq_true, if_false]
          rw [ihV { nd with box := { nd.box with width := hd.box.width } }]

/-! ## Panics -/

/-- A panic or a result, according to a test. -/
def Judged {α : Type} (b : Bool) (r : Res α) : Prop := if b then ∃ e, r = .panic e else ∃ x, r = .ok x

theorem Judged.panic {α : Type} {r : Res α} {b : Bool} (h : Judged b r) : (∃ e, r = .panic e) ↔ b = true := by
  cases b
  · obtain ⟨x, hx⟩ : ∃ x, r = .ok x := by simpa [Judged] using h
    simp [hx]
  · simpa [Judged] using h

theorem Judged.notFuel {α : Type} {r : Res α} {b : Bool} (h : Judged b r) : r ≠ .fuel := by
  cases b
  · obtain ⟨x, hx⟩ : ∃ x, r = .ok x := by simpa [Judged] using h
    simp [hx]
  · obtain ⟨x, hx⟩ : ∃ x, r = .panic x := by simpa [Judged] using h
    simp [hx]

theorem Judged.bind {α β : Type} {r : Res α} {b c : Bool} {f : α → Res β} (h : Judged b r) (hf : ∀ x, Judged c (f x)) :
    Judged (b || c) (r >>= f) := by
  cases b
  · obtain ⟨x, hx⟩ : ∃ x, r = .ok x := by simpa [Judged] using h
    subst hx; simpa using hf x
  · obtain ⟨x, hx⟩ : ∃ x, r = .panic x := by simpa [Judged] using h
    subst hx; exact ⟨x, rfl⟩

theorem Judged.ok {α : Type} (x : α) : Judged false (.ok x : Res α) := ⟨x, rfl⟩
theorem Judged.pan {α : Type} (e : Panic) : Judged true (.panic e : Res α) := ⟨e, rfl⟩

theorem Judged.ite {α : Type} {b : Bool} {e : Panic} {x : α} : Judged b (if b = true then (.panic e : Res α) else .ok x) := by
  cases b
  · exact ⟨x, rfl⟩
  · exact ⟨e, rfl⟩

theorem judgedHs {o : Off F} {cs : List (TNode F)}
    (ih : ∀ c ∈ cs, ∀ hd base q st, Judged (misplacedH hd.box.height c) (hNode o hd base c q st)) (hd : LHead F) (base : F) (q : GlueSt F)
    (st : ShipSt F) : Judged (misplacedHs hd.box.height cs) (hLoop o hd base cs q st) := by
  induction cs generalizing q st with
  | nil => rw [misplacedHs, hLoop]; exact .ok _
  | cons n l ihl =>
    rw [misplacedHs, hLoop]
    refine (ih n List.mem_cons_self hd base q st).bind fun ⟨st1, n1, q1⟩ => ?_
    have := (ihl (fun c hc => ih c (List.mem_cons_of_mem _ hc)) q1 st1).bind (c := false) (f := fun (x : ShipSt F × List (TNode F)) => .ok (x.1, n1 :: x.2))
      (fun x => .ok _)
    rwa [Bool.or_false] at this

theorem judgedVs {o : Off F} {cs : List (TNode F)}
    (ih : ∀ c ∈ cs, ∀ hd base q st, Judged (misplacedV c) (vNode o hd base c q st)) (hd : LHead F) (base : F) (q : GlueSt F)
    (st : ShipSt F) : Judged (misplacedVs cs) (vLoop o hd base cs q st) := by
  induction cs generalizing q st with
  | nil => rw [misplacedVs, vLoop]; exact .ok _
  | cons n l ihl =>
    rw [misplacedVs, vLoop]
    refine (ih n List.mem_cons_self hd base q st).bind fun ⟨st1, n1, q1⟩ => ?_
    have := (ihl (fun c hc => ih c (List.mem_cons_of_mem _ hc)) q1 st1).bind (c := false) (f := fun (x : ShipSt F × List (TNode F)) => .ok (x.1, n1 :: x.2))
      (fun x => .ok _)
    rwa [Bool.or_false] at this

theorem judged_all (o : Off F) (n : TNode F) :
    (∀ hd base q st, Judged (misplacedH hd.box.height n) (hNode o hd base n q st)) ∧
    (∀ hd base q st, Judged (misplacedV n) (vNode o hd base n q st)) := by
  refine tnode_ind (P := fun n => (∀ hd base q st, Judged (misplacedH hd.box.height n) (hNode o hd base n q st)) ∧
    (∀ hd base q st, Judged (misplacedV n) (vNode o hd base n q st))) (fun n hn => ?_) ?_ n
  · constructor <;> intro hd base q st
    · cases n with
      | list k hd cs => exact absurd rfl (hn _ _ _)
      | box b => rw [misplacedH, hNode]; exact .ite
      | rule b => rw [show misplacedH hd.box.height (.rule b : TNode F) = false from rfl, hNode]; split <;> (first | exact .ok _ | (split <;> exact .ok _))
      | _ => rw [hNode]; exact .ok _
    · cases n with
      | list k hd cs => exact absurd rfl (hn _ _ _)
      | char b => rw [vNode]; exact .pan _
      | accent b => rw [vNode]; exact .pan _
      | box b => rw [show misplacedV (.box b : TNode F) = false from rfl, vNode]; split <;> exact .ok _
      | rule b => rw [show misplacedV (.rule b : TNode F) = false from rfl, vNode]; split <;> exact .ok _
      | _ => rw [vNode]; exact .ok _
  · intro k nd cs ih
    have ihH := judgedHs fun c hc => (ih c hc).1
    have ihV := judgedVs fun c hc => (ih c hc).2
    have fin : ∀ {α β : Type} {b : Bool} {r : Res α} {f : α → β}, Judged b r → Judged b (r >>= fun x => .ok (f x)) := by
      intro α β b r f h
      have := h.bind (c := false) (f := fun x => (.ok (f x) : Res β)) (fun x => .ok _)
      rwa [Bool.or_false] at this
    constructor <;> intro hd base q st
    · cases k with
      | plain => rw [misplacedH, hNode]; exact .ite
      | h =>
        rw [misplacedH, hNode]
        cases cs with
        | nil => rw [misplacedHs]; exact .ok _
        | cons a l => exact fin (ihH _ _ _ _)
      | v =>
        rw [misplacedH, hNode]
        cases cs with
        | nil => rw [misplacedVs]; exact .ok _
        | cons a l => exact fin (ihV _ _ _ _)
    · cases k with
      | plain => rw [show misplacedV (.list .plain nd cs : TNode F) = false from rfl, vNode]; split <;> exact .ok _
      | h =>
        rw [misplacedV, vNode]
        cases cs with
        | nil => rw [misplacedHs]; exact .ok _
        | cons a l => exact fin (ihH { nd with box := { nd.box with width := hd.box.width } } _ _ _)
      | v =>
        rw [misplacedV, vNode]
        cases cs with
        | nil => rw [misplacedVs]; exact .ok _
        | cons a l => exact fin (ihV { nd with box := { nd.box with width := hd.box.width } } _ _ _)

end Verif
