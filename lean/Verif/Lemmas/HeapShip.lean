import Verif.Lemmas.HeapBox
import Verif.Model.HeapShip
/-! # Shipping objects does what shipping values does -/

namespace Verif
open GoFloat Spec
variable {F : Type} [GoFloat F]

/-- Only the objects in `S` may have changed. -/
def HeapKept (S : List Ref) (h h' : Heap F) : Prop := h'.length = h.length ∧ ∀ x : Ref, x ∉ S → h'[x]? = h[x]?

theorem HeapKept.rfl {S : List Ref} {h : Heap F} : HeapKept S h h := ⟨_root_.rfl, fun _ _ => _root_.rfl⟩
theorem HeapKept.trans {S : List Ref} {h h1 h2 : Heap F} (a : HeapKept S h h1) (b : HeapKept S h1 h2) : HeapKept S h h2 :=
  ⟨b.1.trans a.1, fun x hx => (b.2 x hx).trans (a.2 x hx)⟩
theorem HeapKept.mono {S S' : List Ref} {h h1 : Heap F} (a : HeapKept S h h1) (hs : ∀ x ∈ S, x ∈ S') : HeapKept S' h h1 :=
  ⟨a.1, fun x hx => a.2 x fun hm => hx (hs x hm)⟩

theorem hGet_some {h : Heap F} {r : Ref} {c : Cell F} (e : h[r]? = some c) : hGet r h = .ok (c, h) := by
  unfold hGet
  rw [e]

theorem res_bind_assoc {α β γ : Type} (x : Res α) (f : α → Res β) (g : β → Res γ) : (x >>= f) >>= g = x >>= fun a => f a >>= g := by
  cases x <;> rfl

theorem RelRes.bind_right {α β δ : Type} {Q : α → β → Prop} {R : α → δ → Prop} {x : Res α} {y : Res β} {g : β → Res δ}
    (h : RelRes Q x y) (k : ∀ a b, Q a b → RelRes R (.ok a) (g b)) : RelRes R x (y >>= g) := by
  cases x <;> cases y <;> simp_all [RelRes]

/-- One step of a loop. -/
def StepOk (h : Heap F) (S : List Ref) (r : Ref) (a : Res ((ShipSt F × GlueSt F) × Heap F)) (b : Res (ShipSt F × TNode F × GlueSt F)) : Prop :=
  RelRes (fun p y => HeapKept S h p.2 ∧ p.1 = (y.1, y.2.2) ∧ At p.2 r y.2.1 S) a b

/-- A loop. -/
def LoopOk (h : Heap F) (S : List Ref) (rs : List Ref) (a : Res (ShipSt F × Heap F)) (b : Res (ShipSt F × List (TNode F))) : Prop :=
  RelRes (fun p y => HeapKept S h p.2 ∧ p.1 = y.1 ∧ AtAll p.2 rs y.2 S) a b

theorem head_eq (k : LKind) (hd : LHead F) (rs : List Ref) :
    ({ (Cell.list k hd rs).head with order := hd.order, sign := hd.sign } : LHead F) = hd := rfl

theorem ship_both (o : Off F) :
    (∀ (t : TNode F) (n : Nat), t.nest ≤ n → ∀ (h : Heap F) (r : Ref) (S : List Ref), At h r t S → S.Nodup →
      ∀ (box : Ref) (k : LKind) (hd : LHead F) (rs : List Ref), box ∉ S → h[box]? = some (.list k hd rs) → ∀ (base : F) (q : GlueSt F) (st : ShipSt F),
      StepOk h S r (hhStep o (hHOut o n) (hVOut o n) box hd.order hd.sign base r q st h) (hNode o hd base t q st) ∧
      StepOk h S r (hvStep o (hHOut o n) (hVOut o n) box hd.order hd.sign base r q st h) (vNode o hd base t q st)) ∧
    (∀ (ts : List (TNode F)) (n : Nat), nestAll ts ≤ n → ∀ (h : Heap F) (cs : List Ref) (S : List Ref), AtAll h cs ts S → S.Nodup →
      ∀ (box : Ref) (k : LKind) (hd : LHead F) (rs : List Ref), box ∉ S → h[box]? = some (.list k hd rs) → ∀ (base : F) (q : GlueSt F) (st : ShipSt F),
      LoopOk h S cs (hShipLoop (hhStep o (hHOut o n) (hVOut o n) box hd.order hd.sign base) cs q st h) (hLoop o hd base ts q st) ∧
      LoopOk h S cs (hShipLoop (hvStep o (hHOut o n) (hVOut o n) box hd.order hd.sign base) cs q st h) (vLoop o hd base ts q st)) := by
  refine tree_ind ?_ ?_ ?_
  · intro t ih n hn h r S ha hnd box k hd rs hbox hb base q st
    have hhd : hHead box hd.order hd.sign h = .ok (hd, h) := by
      simp only [hHead, HM.bind, hGet_some hb, Res.ok_bind, HM.ret]
      rfl
    have ha' := ha
    cases t with
    | char c =>
      simp only [At] at ha
      exact ⟨by simp only [hhStep, HM.bind, hGet_some ha.1, Res.ok_bind, HM.ret, hNode]; exact ⟨.rfl, rfl, ha'⟩,
        by simp only [hvStep, HM.bind, hGet_some ha.1, Res.ok_bind, HM.lift, vNode]; exact rfl⟩
    | accent c =>
      simp only [At] at ha
      exact ⟨by simp only [hhStep, HM.bind, hGet_some ha.1, Res.ok_bind, HM.ret, hNode]; exact ⟨.rfl, rfl, ha'⟩,
        by simp only [hvStep, HM.bind, hGet_some ha.1, Res.ok_bind, HM.lift, vNode]; exact rfl⟩
    | kern c =>
      simp only [At] at ha
      exact ⟨by simp only [hhStep, HM.bind, hGet_some ha.1, Res.ok_bind, HM.ret, hNode]; exact ⟨.rfl, rfl, ha'⟩,
        by simp only [hvStep, HM.bind, hGet_some ha.1, Res.ok_bind, HM.ret, vNode]; exact ⟨.rfl, rfl, ha'⟩⟩
    | glue g =>
      simp only [At] at ha
      exact ⟨by simp only [hhStep, HM.bind, hGet_some ha.1, Res.ok_bind, HM.ret, hNode, hhd]; exact ⟨.rfl, rfl, ha'⟩,
        by simp only [hvStep, HM.bind, hGet_some ha.1, Res.ok_bind, HM.ret, vNode, hhd]; exact ⟨.rfl, rfl, ha'⟩⟩
    | box b =>
      simp only [At] at ha
      refine ⟨?_, ?_⟩
      · simp only [hhStep, HM.bind, hGet_some ha.1, Res.ok_bind, hNode, hhd]
        repeat' split
        all_goals first | exact rfl | exact ⟨.rfl, rfl, ha'⟩
      · simp only [hvStep, HM.bind, hGet_some ha.1, Res.ok_bind, vNode]
        repeat' split
        all_goals exact ⟨.rfl, rfl, ha'⟩
    | rule b =>
      simp only [At] at ha
      refine ⟨?_, ?_⟩
      · simp only [hhStep, HM.bind, hGet_some ha.1, Res.ok_bind, hNode, hhd]
        repeat' split
        all_goals exact ⟨.rfl, rfl, ha'⟩
      · simp only [hvStep, HM.bind, hGet_some ha.1, Res.ok_bind, vNode, hhd]
        repeat' split
        all_goals exact ⟨.rfl, rfl, ha'⟩
    | list k' nd cs =>
      simp only [At] at ha
      obtain ⟨rs', S', e1, rfl, e3⟩ := ha
      have hr := (List.nodup_cons.1 hnd).1
      have hnd' := (List.nodup_cons.1 hnd).2
      have hlt := (List.getElem?_eq_some_iff.1 e1).1
      rw [nest_eq] at hn
      obtain ⟨n, rfl⟩ : ∃ m, n = m + 1 := ⟨n - 1, by omega⟩
      have hemp : rs'.isEmpty = cs.isEmpty := by
        cases cs with
        | nil => rw [atAll_nil'] at e3; rw [e3.1]; rfl
        | cons t ts =>
          cases rs' with
          | nil => simp [AtAll] at e3
          | cons _ _ => rfl
      cases k' with
      | plain =>
        refine ⟨?_, ?_⟩
        · simp only [hhStep, HM.bind, hGet_some e1, Res.ok_bind, hNode, hhd]
          repeat' split
          all_goals first | exact rfl | exact ⟨.rfl, rfl, ha'⟩
        · simp only [hvStep, HM.bind, hGet_some e1, Res.ok_bind, vNode]
          repeat' split
          all_goals exact ⟨.rfl, rfl, ha'⟩
      | h =>
        refine ⟨?_, ?_⟩
        · simp only [hhStep, HM.bind, hGet_some e1, Res.ok_bind, hNode, hemp]
          split
          · exact ⟨.rfl, rfl, ha'⟩
          · have := (ih n (by omega) h rs' S' e3 hnd' r .h nd rs' hr e1 (base + nd.shift) .zero
              ({ st with v := base + nd.shift } : ShipSt F).push).1
            simp only [hHOut, HM.bind, hGet_some e1, Res.ok_bind, res_bind_assoc]
            refine RelRes.bind this fun p y hy => ?_
            obtain ⟨k1, k2, k3⟩ := hy
            have e1' : p.2[r]? = some (.list .h nd rs') := by rw [k1.2 r hr, e1]
            simp only [HM.ret, Res.ok_bind, hGet_some e1']
            refine ⟨k1.mono fun x hx => by simp [hx], by rw [k2]; rfl, ?_⟩
            simp only [At]
            exact ⟨rs', S', e1', rfl, k3⟩
        · simp only [hvStep, HM.bind, hGet_some e1, Res.ok_bind, vNode, hemp]
          split
          · exact ⟨.rfl, rfl, ha'⟩
          · simp only [HM.bind, hhd, Res.ok_bind, hSet]
            set nd' : LHead F := { nd with box := { nd.box with width := hd.box.width } } with hnd2
            have e2 : (h.set r (.list .h nd' rs'))[r]? = some (.list .h nd' rs') := by simp [hlt]
            have e4 : AtAll (h.set r (.list .h nd' rs')) rs' cs S' := e3.same fun x hx => by
              rw [List.getElem?_set_ne]
              intro e; subst e; exact hr hx
            have := (ih n (by omega) _ rs' S' e4 hnd' r .h nd' rs' hr e2 (st.v + nd.box.height) .zero
              ({ st with v := st.v + nd.box.height, h := base + nd.shift } : ShipSt F).push).1
            simp only [hHOut, HM.bind, hGet_some e2, Res.ok_bind, res_bind_assoc]
            refine RelRes.bind this fun p y hy => ?_
            obtain ⟨k1, k2, k3⟩ := hy
            have e1' : p.2[r]? = some (.list .h nd' rs') := by rw [k1.2 r hr, e2]
            simp only [HM.ret, Res.ok_bind, hGet_some e1']
            refine ⟨⟨by rw [k1.1]; simp, fun x hx => ?_⟩, by rw [k2]; rfl, ?_⟩
            · rw [k1.2 x fun hm => hx (by simp [hm]), List.getElem?_set_ne]
              intro e; subst e; exact hx (by simp)
            · simp only [At]
              exact ⟨rs', S', e1', rfl, k3⟩
      | v =>
        refine ⟨?_, ?_⟩
        · simp only [hhStep, HM.bind, hGet_some e1, Res.ok_bind, hNode, hemp]
          split
          · exact ⟨.rfl, rfl, ha'⟩
          · have := (ih n (by omega) h rs' S' e3 hnd' r .v nd rs' hr e1 st.h .zero
              ({ st with v := base + nd.shift - nd.box.height } : ShipSt F).push).2
            simp only [hVOut, HM.bind, hGet_some e1, Res.ok_bind, res_bind_assoc]
            refine RelRes.bind this fun p y hy => ?_
            obtain ⟨k1, k2, k3⟩ := hy
            have e1' : p.2[r]? = some (.list .v nd rs') := by rw [k1.2 r hr, e1]
            simp only [HM.ret, Res.ok_bind, hGet_some e1']
            refine ⟨k1.mono fun x hx => by simp [hx], by rw [k2]; rfl, ?_⟩
            simp only [At]
            exact ⟨rs', S', e1', rfl, k3⟩
        · simp only [hvStep, HM.bind, hGet_some e1, Res.ok_bind, vNode, hemp]
          split
          · exact ⟨.rfl, rfl, ha'⟩
          · simp only [HM.bind, hhd, Res.ok_bind, hSet]
            set nd' : LHead F := { nd with box := { nd.box with width := hd.box.width } } with hnd2
            have e2 : (h.set r (.list .v nd' rs'))[r]? = some (.list .v nd' rs') := by simp [hlt]
            have e4 : AtAll (h.set r (.list .v nd' rs')) rs' cs S' := e3.same fun x hx => by
              rw [List.getElem?_set_ne]
              intro e; subst e; exact hr hx
            have := (ih n (by omega) _ rs' S' e4 hnd' r .v nd' rs' hr e2 (base + nd.shift) .zero
              ({ st with v := st.v + nd.box.height - nd.box.height, h := base + nd.shift } : ShipSt F).push).2
            simp only [hVOut, HM.bind, hGet_some e2, Res.ok_bind, res_bind_assoc]
            refine RelRes.bind this fun p y hy => ?_
            obtain ⟨k1, k2, k3⟩ := hy
            have e1' : p.2[r]? = some (.list .v nd' rs') := by rw [k1.2 r hr, e2]
            simp only [HM.ret, Res.ok_bind, hGet_some e1']
            refine ⟨⟨by rw [k1.1]; simp, fun x hx => ?_⟩, by rw [k2]; rfl, ?_⟩
            · rw [k1.2 x fun hm => hx (by simp [hm]), List.getElem?_set_ne]
              intro e; subst e; exact hx (by simp)
            · simp only [At]
              exact ⟨rs', S', e1', rfl, k3⟩
  · intro n _ h cs S ha _ box k hd rs _ _ base q st
    rw [atAll_nil'] at ha
    obtain ⟨rfl, rfl⟩ := ha
    simp only [hShipLoop, hLoop, vLoop, HM.ret]
    exact ⟨⟨.rfl, rfl, by simp [AtAll]⟩, ⟨.rfl, rfl, by simp [AtAll]⟩⟩
  · intro t ts iht ihs n hn h cs S ha hnd box k hd rs hbox hb base q st
    cases cs with
    | nil => simp [AtAll] at ha
    | cons r cs =>
      rw [atAll_cons] at ha
      obtain ⟨S1, S2, rfl, a1, a2⟩ := ha
      obtain ⟨n1, n2, n3⟩ := List.nodup_append.1 hnd
      rw [nestAll_cons] at hn
      have m1 : t.nest ≤ Nat.max t.nest (nestAll ts) := Nat.le_max_left _ _
      have m2 : nestAll ts ≤ Nat.max t.nest (nestAll ts) := Nat.le_max_right _ _
      have hb1 : box ∉ S1 := fun hm => hbox (by simp [hm])
      have hb2 : box ∉ S2 := fun hm => hbox (by simp [hm])
      have st1 := iht n (by omega) h r S1 a1 n1 box k hd rs hb1 hb base q st
      have next : ∀ (p : (ShipSt F × GlueSt F) × Heap F) (y : ShipSt F × TNode F × GlueSt F), HeapKept S1 h p.2 → AtAll p.2 cs ts S2 ∧ p.2[box]? = some (.list k hd rs) := by
        intro p y kp
        exact ⟨a2.same fun x hx => kp.2 x fun hm => n3 x hm x hx rfl, by rw [kp.2 box hb1, hb]⟩
      have last : ∀ (h1 h2 : Heap F) (t' : TNode F) (ts' : List (TNode F)), HeapKept S1 h h1 → At h1 r t' S1 → HeapKept S2 h1 h2 → AtAll h2 cs ts' S2 →
          HeapKept (S1 ++ S2) h h2 ∧ AtAll h2 (r :: cs) (t' :: ts') (S1 ++ S2) := by
        intro h1 h2 t' ts' b1 b2 b3 b4
        refine ⟨(b1.mono fun x hx => by simp [hx]).trans (b3.mono fun x hx => by simp [hx]), ?_⟩
        rw [atAll_cons]
        exact ⟨S1, S2, rfl, b2.same fun x hx => b3.2 x fun hm => n3 x hx x hm rfl, b4⟩
      refine ⟨?_, ?_⟩
      · simp only [hShipLoop, hLoop, HM.bind]
        refine RelRes.bind st1.1 fun p y hy => ?_
        obtain ⟨k1, k2, k3⟩ := hy
        obtain ⟨c1, c2⟩ := next p y k1
        have := (ihs n (by omega) p.2 cs S2 c1 n2 box k hd rs hb2 c2 base y.2.2 y.1).1
        obtain ⟨⟨p1, p2⟩, p3⟩ := p
        cases k2
        refine RelRes.bind_right this fun p' y' hy' => ?_
        obtain ⟨d1, d2, d3⟩ := hy'
        obtain ⟨f1, f2⟩ := last _ _ _ _ k1 k3 d1 d3
        exact ⟨f1, d2, f2⟩
      · simp only [hShipLoop, vLoop, HM.bind]
        refine RelRes.bind st1.2 fun p y hy => ?_
        obtain ⟨k1, k2, k3⟩ := hy
        obtain ⟨c1, c2⟩ := next p y k1
        have := (ihs n (by omega) p.2 cs S2 c1 n2 box k hd rs hb2 c2 base y.2.2 y.1).2
        obtain ⟨⟨p1, p2⟩, p3⟩ := p
        cases k2
        refine RelRes.bind_right this fun p' y' hy' => ?_
        obtain ⟨d1, d2, d3⟩ := hy'
        obtain ⟨f1, f2⟩ := last _ _ _ _ k1 k3 d1 d3
        exact ⟨f1, d2, f2⟩

/-- `Ship.Call` on an object of which no part is met twice. -/
theorem ship_at (ox oy : F) {h : Heap F} {r : Ref} {k : LKind} {hd : LHead F} {cs : List (TNode F)} {S : List Ref} (ha : At h r (.list k hd cs) S)
    (hnd : S.Nodup) : RelRes (fun p y => HeapKept S h p.2 ∧ p.1 = y.1 ∧ p.2[r]? = h[r]? ∧ At p.2 r (.list k hd y.2) S) (hShip ox oy r h)
      (shipCall ox oy hd cs) := by
  have hl := ha.nest_le
  rw [nest_eq] at hl
  simp only [At] at ha
  obtain ⟨rs, S', e1, rfl, e3⟩ := ha
  obtain ⟨n, hn⟩ : ∃ m, h.length = m + 1 := ⟨h.length - 1, by omega⟩
  have hr := (List.nodup_cons.1 hnd).1
  have := ((ship_both ⟨ox, oy + hd.box.height⟩).2 cs n (by simp only [TNode.kids] at hl; omega) h rs S' e3 (List.nodup_cons.1 hnd).2 r k hd rs hr e1 zero .zero
    (ShipSt.push ⟨0, 0, zero, zero, []⟩)).1
  unfold hShip shipCall
  simp only [HM.bind, hGet_some e1, Res.ok_bind, hn, hHOut]
  refine RelRes.bind this fun p y hy => ?_
  obtain ⟨k1, k2, k3⟩ := hy
  have e1' : p.2[r]? = some (.list k hd rs) := by rw [k1.2 r hr, e1]
  refine ⟨k1.mono fun x hx => by simp [hx], by rw [k2], by rw [e1', e1], ?_⟩
  simp only [At]
  exact ⟨rs, S', e1', rfl, k3⟩

theorem run_ship (ox oy : F) {h : Heap F} {base : Nat} {r : Ref} {k : LKind} {hd : LHead F} {cs : List (TNode F)} {l : List (Ref × TNode F)}
    (hl : Held h base ((r, .list k hd cs) :: l)) :
    Run (hShip ox oy r) h base (shipCall ox oy hd cs) (fun h' st y => st = y.1 ∧ Held h' base ((r, .list k hd y.2) :: l)) := by
  obtain ⟨S1, S2, a, b, c, d, e, f, g⟩ := hl.head
  refine RelRes.imp (ship_at ox oy a c) fun p y hy => ?_
  obtain ⟨k1, k2, _, k3⟩ := hy
  obtain ⟨m1, m2⟩ := Held.change hl.1 b c d e f g k3 k1.1 k1.2
  exact ⟨m2, k2, m1⟩

end Verif
