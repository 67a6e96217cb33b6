import Verif.Lemmas.Ship
import Verif.Lemmas.IeeeGlue
import Verif.Lemmas.ZoomShip
/-! # Rounding errors of Ship -/

namespace Verif
open GoFloat Spec

variable {N : ℕ} {T G R : ℚ}

/-- How far off drawings may be. -/
def drawErr (N : ℕ) (T G : ℚ) : ℚ := ((1 + unit64) ^ N - 1) * T + G

/-- The cursor of Ship after at most `n` roundings of numbers of size `S` at most, but for `dh` and `dv`, and what has been drawn. -/
structure StErr (e : ℚ) (n : ℕ) (S dh dv : ℚ) (st : ShipSt F64) (st' : ShipSt XR) : Prop where
  h : ErrD n S dh st.h st'.h
  v : ErrD n S dv st.v st'.v
  ops : List.Forall₂ (SameDraw e) st.ops st'.ops

theorem StErr.mono {e : ℚ} {n m : ℕ} {S S' dh dv : ℚ} {st : ShipSt F64} {st' : ShipSt XR} (h : StErr e n S dh dv st st') (hn : n ≤ m) (hS : S ≤ S') :
    StErr e m S' dh dv st st' := ⟨h.h.mono hn hS, h.v.mono hn hS, h.ops⟩

theorem forall₂_snoc {α β : Type} {R : α → β → Prop} {a : List α} {b : List β} {x : α} {y : β} (h : List.Forall₂ R a b) (hxy : R x y) :
    List.Forall₂ R (a ++ [x]) (b ++ [y]) := List.rel_append h (.cons hxy .nil)

/-- A list of finite dimensions. -/
structure HeadFin (hd : LHead F64) : Prop where
  width : Fin64 hd.box.width
  height : Fin64 hd.box.height
  depth : Fin64 hd.box.depth

/-- What Ship makes of a node of a horizontal list in float64 and exactly: the glue variables may differ, and with them the places. -/
def PostH (e : ℚ) (k : ℕ) (S R : ℚ) (hd : LHead F64) (A c db : ℚ) (a : ShipSt F64 × TNode F64 × GlueSt F64) (b : ShipSt XR × TNode XR × GlueSt XR) : Prop :=
  StErr e k S (c + ((b.2.2.g : ℚ) - a.2.2.g)) db a.1 b.1 ∧ b.2.1 = exactNode a.2.1 ∧ GlueRel R hd k A a.2.2 b.2.2

/-- The same for a vertical list. -/
def PostV (e : ℚ) (k : ℕ) (S R : ℚ) (hd : LHead F64) (A c dl : ℚ) (a : ShipSt F64 × TNode F64 × GlueSt F64) (b : ShipSt XR × TNode XR × GlueSt XR) : Prop :=
  StErr e k S dl (c + ((b.2.2.g : ℚ) - a.2.2.g)) a.1 b.1 ∧ b.2.1 = exactNode a.2.1 ∧ GlueRel R hd k A a.2.2 b.2.2

/-- Ship on a node of a horizontal list. -/
def SimH (N : ℕ) (T G R OS : ℚ) (o : Off F64) (o' : Off XR) (n : TNode F64) : Prop :=
  ∀ (hd : LHead F64) (base : F64) (base' : XR) (k : ℕ) (S D A B Gc c db : ℚ) (q : GlueSt F64) (q' : GlueSt XR) (st : ShipSt F64) (st' : ShipSt XR),
    TameH R n → HeadFin hd → size64 hd.box.height + size64 hd.box.depth ≤ D → (hd.sign ≠ 0 → B ≤ T) → GlueFin R B hd n → GlueRel R hd k A q q' →
    A + glueLeeway n ≤ B → ErrD k S db base base' → StErr (drawErr N T G) k S (c + ((q'.g : ℚ) - q.g)) db st st' → |c| + setSlack hd ≤ Gc → |db| ≤ Gc →
    Gc + setNest n ≤ G → 1 ≤ k → k + shipSteps n ≤ N → S + OS + D + shipLengths R hd.sign n ≤ T →
    Alike (PostH (drawErr N T G) (k + shipSteps n) (S + shipLengths R hd.sign n) R hd (A + glueLeeway n) c db)
      (hNode o hd base n q st) (hNode o' (exactHead hd) base' (exactNode n) q' st')

/-- Ship on a node of a vertical list. -/
def SimV (N : ℕ) (T G R OS : ℚ) (o : Off F64) (o' : Off XR) (n : TNode F64) : Prop :=
  ∀ (hd : LHead F64) (left : F64) (left' : XR) (k : ℕ) (S D A B Gc c dl : ℚ) (q : GlueSt F64) (q' : GlueSt XR) (st : ShipSt F64) (st' : ShipSt XR),
    TameV R n → HeadFin hd → size64 hd.box.width ≤ D → (hd.sign ≠ 0 → B ≤ T) → GlueFin R B hd n → GlueRel R hd k A q q' →
    A + glueLeeway n ≤ B → ErrD k S dl left left' → StErr (drawErr N T G) k S dl (c + ((q'.g : ℚ) - q.g)) st st' → |c| + setSlack hd ≤ Gc → |dl| ≤ Gc →
    Gc + setNest n ≤ G → 1 ≤ k → k + shipSteps n ≤ N → S + OS + D + shipLengths R hd.sign n ≤ T →
    Alike (PostV (drawErr N T G) (k + shipSteps n) (S + shipLengths R hd.sign n) R hd (A + glueLeeway n) c dl)
      (vNode o hd left n q st) (vNode o' (exactHead hd) left' (exactNode n) q' st')

section
variable {OS : ℚ} {o : Off F64} {o' : Off XR}

theorem glueSize_nonneg (g : GlueD F64) : 0 ≤ glueSize g := by
  have := size64_nonneg g.stretch
  have := size64_nonneg g.shrink
  rw [glueSize]; linarith

theorem leeway_nonneg (n : TNode F64) : 0 ≤ glueLeeway n := by
  cases n with
  | glue g => exact glueSize_nonneg g
  | _ => exact le_rfl

theorem glueTotal_cons (n : TNode F64) (l : List (TNode F64)) : glueTotal (n :: l) = glueLeeway n + glueTotal l := by
  cases n <;> simp [glueTotal, glueLeeway]

theorem glueTotal_nonneg (l : List (TNode F64)) : 0 ≤ glueTotal l := by
  induction l with
  | nil => exact le_rfl
  | cons n l ih => rw [glueTotal_cons]; have := leeway_nonneg n; linarith

mutual
theorem lengths_nonneg (hR : 0 ≤ R) (s : Int) : (n : TNode F64) → 0 ≤ shipLengths R s n
  | .box b => by rw [shipLengths, boxSize]; have := size64_nonneg b.width; have := size64_nonneg b.height; have := size64_nonneg b.depth; linarith
  | .char c => by rw [shipLengths]; exact size64_nonneg _
  | .accent c => by
    rw [shipLengths]; have := size64_nonneg c.width; have := size64_nonneg c.metrics.xmin; have := size64_nonneg c.metrics.ymin; linarith
  | .list _ hd cs => by
    rw [shipLengths, boxSize]
    have := size64_nonneg hd.box.width; have := size64_nonneg hd.box.height; have := size64_nonneg hd.box.depth
    have := size64_nonneg hd.shift; have := lengthsAll_nonneg hR hd.sign cs; linarith
  | .rule b => by rw [shipLengths, boxSize]; have := size64_nonneg b.width; have := size64_nonneg b.height; have := size64_nonneg b.depth; linarith
  | .glue g => by
    rw [shipLengths]
    have := size64_nonneg g.width
    have := glueSize_nonneg g
    split_ifs <;> linarith
  | .kern k => by rw [shipLengths]; exact size64_nonneg _
theorem lengthsAll_nonneg (hR : 0 ≤ R) (s : Int) : (l : List (TNode F64)) → 0 ≤ shipLengthsAll R s l
  | [] => by rw [shipLengthsAll]
  | n :: l => by rw [shipLengthsAll]; have := lengths_nonneg hR s n; have := lengthsAll_nonneg hR s l; linarith
end

theorem leeway_le (hR : 0 ≤ R) {s : Int} (hs : s ≠ 0) (n : TNode F64) : glueLeeway n ≤ shipLengths R s n := by
  cases n with
  | glue g =>
    rw [shipLengths, if_neg hs]
    show glueSize g ≤ _
    have := size64_nonneg g.width
    linarith
  | _ => exact lengths_nonneg hR s _

theorem total_le (hR : 0 ≤ R) {s : Int} (hs : s ≠ 0) (l : List (TNode F64)) : glueTotal l ≤ shipLengthsAll R s l := by
  induction l with
  | nil => rw [glueTotal, shipLengthsAll]
  | cons n l ih => rw [glueTotal_cons, shipLengthsAll]; have := leeway_le hR hs n; linarith

theorem gluesFin {hd : LHead F64} {cs : List (TNode F64)} (h : TameList R hd cs) (hd' : LHead F64) (h1 : hd'.sign = hd.sign) (h2 : hd'.set = hd.set) :
    ∀ n ∈ cs, GlueFin R (glueTotal cs) hd' n := by
  intro n hn
  cases n with
  | glue g =>
    intro hs
    rw [h1] at hs
    obtain ⟨a, b, c⟩ := h.glue hs
    exact ⟨(b g hn).1, (b g hn).2, by rw [h2]; exact a, by rw [h2]; exact c⟩
  | _ => trivial

theorem setSlack_nonneg (hd : LHead F64) : 0 ≤ setSlack hd := by unfold setSlack; split_ifs <;> norm_num

theorem nest_cast (hd : LHead F64) : (((if hd.sign = 0 then 0 else 1 : ℕ) : ℕ) : ℚ) = setSlack hd := by
  unfold setSlack; split_ifs <;> simp

theorem simHs (hR0 : 0 ≤ R) {cs : List (TNode F64)} (ih : ∀ c ∈ cs, SimH N T G R OS o o' c) (hd : LHead F64) (base : F64) (base' : XR) (k : ℕ) (S D A B Gc c db : ℚ)
    (q : GlueSt F64) (q' : GlueSt XR) (st : ShipSt F64) (st' : ShipSt XR) (hR : TameHs R cs) (hH : HeadFin hd) (hD : size64 hd.box.height + size64 hd.box.depth ≤ D)
    (hB : hd.sign ≠ 0 → B ≤ T) (hF : ∀ n ∈ cs, GlueFin R B hd n) (hq : GlueRel R hd k A q q') (hA : A + glueTotal cs ≤ B)
    (hb : ErrD k S db base base') (hst : StErr (drawErr N T G) k S (c + ((q'.g : ℚ) - q.g)) db st st') (hc : |c| + setSlack hd ≤ Gc) (hdb : |db| ≤ Gc)
    (hG : Gc + setNests cs ≤ G) (hk : 1 ≤ k) (hN : k + shipStepsAll cs ≤ N)
    (hS : S + OS + D + shipLengthsAll R hd.sign cs ≤ T) :
    Alike (fun a b => List.Forall₂ (SameDraw (drawErr N T G)) a.1.ops b.1.ops ∧ b.2 = exactNodes a.2)
      (hLoop o hd base cs q st) (hLoop o' (exactHead hd) base' (exactNodes cs) q' st') := by
  induction cs generalizing k S A q q' st st' with
  | nil => rw [hLoop, exactNodes, hLoop]; exact ⟨hst.ops, by show [] = exactNodes []; rw [exactNodes]⟩
  | cons n l ihl =>
    rw [shipStepsAll] at hN
    rw [shipLengthsAll] at hS
    rw [glueTotal_cons] at hA
    rw [setNests] at hG
    have hm : (setNest n : ℚ) ≤ (max (setNest n) (setNests l) : ℕ) := by exact_mod_cast le_max_left _ _
    have hm' : (setNests l : ℚ) ≤ (max (setNest n) (setNests l) : ℕ) := by exact_mod_cast le_max_right _ _
    have h1 := lengths_nonneg hR0 hd.sign n
    have h2 := lengthsAll_nonneg hR0 hd.sign l
    have h3 := glueTotal_nonneg l
    rw [TameHs] at hR
    rw [hLoop, exactNodes, hLoop]
    refine Alike.bind (ih n List.mem_cons_self hd base base' k S D A B Gc c db q q' st st' hR.1 hH hD hB (hF n List.mem_cons_self) hq (by linarith) hb hst hc hdb
      (by linarith) hk (by omega) (by linarith)) ?_
    rintro ⟨s1, n1, q1⟩ ⟨s1', n1', q1'⟩ ⟨e1, e2, e3⟩
    dsimp only at e1 e2 e3
    subst e2
    refine Alike.bind (ihl (fun c hc => ih c (List.mem_cons_of_mem _ hc)) (k + shipSteps n) (S + shipLengths R hd.sign n) (A + glueLeeway n) q1 q1' s1 s1' hR.2
      (fun n hn => hF n (List.mem_cons_of_mem _ hn)) e3 (by linarith)
      (hb.mono (by omega) (by linarith)) e1 (by linarith) (by omega) (by omega) (by linarith)) ?_
    rintro ⟨s2, l2⟩ ⟨s2', l2'⟩ ⟨e5, e6⟩
    exact ⟨e5, by dsimp only at e6 ⊢; rw [e6, exactNodes]⟩

theorem simVs (hR0 : 0 ≤ R) {cs : List (TNode F64)} (ih : ∀ c ∈ cs, SimV N T G R OS o o' c) (hd : LHead F64) (base : F64) (base' : XR) (k : ℕ) (S D A B Gc c db : ℚ)
    (q : GlueSt F64) (q' : GlueSt XR) (st : ShipSt F64) (st' : ShipSt XR) (hR : TameVs R cs) (hH : HeadFin hd) (hD : size64 hd.box.width ≤ D)
    (hB : hd.sign ≠ 0 → B ≤ T) (hF : ∀ n ∈ cs, GlueFin R B hd n) (hq : GlueRel R hd k A q q') (hA : A + glueTotal cs ≤ B)
    (hb : ErrD k S db base base') (hst : StErr (drawErr N T G) k S db (c + ((q'.g : ℚ) - q.g)) st st') (hc : |c| + setSlack hd ≤ Gc) (hdb : |db| ≤ Gc)
    (hG : Gc + setNests cs ≤ G) (hk : 1 ≤ k) (hN : k + shipStepsAll cs ≤ N)
    (hS : S + OS + D + shipLengthsAll R hd.sign cs ≤ T) :
    Alike (fun a b => List.Forall₂ (SameDraw (drawErr N T G)) a.1.ops b.1.ops ∧ b.2 = exactNodes a.2)
      (vLoop o hd base cs q st) (vLoop o' (exactHead hd) base' (exactNodes cs) q' st') := by
  induction cs generalizing k S A q q' st st' with
  | nil => rw [vLoop, exactNodes, vLoop]; exact ⟨hst.ops, by show [] = exactNodes []; rw [exactNodes]⟩
  | cons n l ihl =>
    rw [shipStepsAll] at hN
    rw [shipLengthsAll] at hS
    rw [glueTotal_cons] at hA
    rw [setNests] at hG
    have hm : (setNest n : ℚ) ≤ (max (setNest n) (setNests l) : ℕ) := by exact_mod_cast le_max_left _ _
    have hm' : (setNests l : ℚ) ≤ (max (setNest n) (setNests l) : ℕ) := by exact_mod_cast le_max_right _ _
    have h1 := lengths_nonneg hR0 hd.sign n
    have h2 := lengthsAll_nonneg hR0 hd.sign l
    have h3 := glueTotal_nonneg l
    rw [TameVs] at hR
    rw [vLoop, exactNodes, vLoop]
    refine Alike.bind (ih n List.mem_cons_self hd base base' k S D A B Gc c db q q' st st' hR.1 hH hD hB (hF n List.mem_cons_self) hq (by linarith) hb hst hc hdb
      (by linarith) hk (by omega) (by linarith)) ?_
    rintro ⟨s1, n1, q1⟩ ⟨s1', n1', q1'⟩ ⟨e1, e2, e3⟩
    dsimp only at e1 e2 e3
    subst e2
    refine Alike.bind (ihl (fun c hc => ih c (List.mem_cons_of_mem _ hc)) (k + shipSteps n) (S + shipLengths R hd.sign n) (A + glueLeeway n) q1 q1' s1 s1' hR.2
      (fun n hn => hF n (List.mem_cons_of_mem _ hn)) e3 (by linarith)
      (hb.mono (by omega) (by linarith)) e1 (by linarith) (by omega) (by omega) (by linarith)) ?_
    rintro ⟨s2, l2⟩ ⟨s2', l2'⟩ ⟨e5, e6⟩
    exact ⟨e5, by dsimp only at e6 ⊢; rw [e6, exactNodes]⟩

theorem off_pair {k k' : ℕ} {S S' d d' : ℚ} {x y : F64} {x' y' : XR} (hx : ErrD k S d x x') (hy : ErrD k' S' d' y y') (hk : k ≤ N) (hk' : k' ≤ N) (hS : S ≤ T) (hS' : S' ≤ T)
    (hd : |d| ≤ G) (hd' : |d'| ≤ G) :
    ∃ p q, x' = .fin p ∧ Off64 (drawErr N T G) x p ∧ y' = .fin q ∧ Off64 (drawErr N T G) y q := by
  obtain ⟨p, h1, h2⟩ := offD (N := N) (T := T) hx hk hS hd
  obtain ⟨q, h3, h4⟩ := offD (N := N) (T := T) hy hk' hS' hd'
  exact ⟨p, q, h1, h2, h3, h4⟩

theorem sim_leafH (hT : (1 + unit64) ^ N * T < 2 ^ (1024 : ℕ)) (hR0 : 0 ≤ R) (hN2 : N ≤ 2 ^ 52) (hNR : N * R ≤ 2 ^ 50) (hoh : ErrX 1 OS o.h o'.h) (hov : ErrX 1 OS o.v o'.v) (n : TNode F64)
    (hn : ∀ k hd cs, n ≠ .list k hd cs) : SimH N T G R OS o o' n := by
  intro hd base base' k S D A B Gc c db q q' st st' hR hH hD hB hF hq hA hb hst hGc hdb hG hk hN hS
  have hOS := err_size hoh
  have hSS := hb.size
  have hD0 : 0 ≤ D := le_trans (by have := size64_nonneg hd.box.height; have := size64_nonneg hd.box.depth; linarith) hD
  have ox := err_mono hoh hk le_rfl
  have ov := err_mono hov hk le_rfl
  have hsl := hq.slack
  have hab := abs_add_le c ((q'.g : ℚ) - q.g)
  have hnest : (0 : ℚ) ≤ setNest n := Nat.cast_nonneg _
  have hGc' : |c + ((q'.g : ℚ) - q.g)| ≤ Gc := by linarith only [hsl, hab, hGc]
  have hG1 : |c + ((q'.g : ℚ) - q.g)| ≤ G := by linarith only [hGc', hG, hnest]
  have hG2 : |db| ≤ G := by linarith only [hdb, hG, hnest]
  have hle := leeway_nonneg n
  have hqm : GlueRel R hd (k + shipSteps n) (A + glueLeeway n) q q' := hq.mono (by omega) (by linarith only [hle])
  have hGh := hG1
  have hGv := hG2
  cases n with
  | list a b c => exact absurd rfl (hn a b c)
  | char c =>
    rw [hNode, exactNode, hNode]
    rw [TameH] at hR
    rw [shipSteps] at hN
    rw [shipLengths] at hS
    have hw := size64_nonneg c.width
    have e1 := add_errD hT hst.h (err_num hR k) (by omega) (by linarith)
    have ex := add_errD hT hst.h ox (by omega) (by linarith)
    have ey := add_errD hT hst.v ov (by omega) (by linarith)
    refine ⟨⟨e1.mono (by rw [shipSteps]; omega) (by rw [shipLengths]), hst.v.mono (by omega) (by rw [shipLengths]; linarith), ?_⟩, by rw [exactNode], hqm⟩
    exact forall₂_snoc hst.ops ⟨off_pair ex ey (by omega) (by omega) (by linarith) (by linarith) hGh hGv, rfl, rfl, rfl⟩
  | accent c =>
    rw [hNode, exactNode, hNode]
    rw [TameH] at hR
    rw [shipSteps] at hN
    rw [shipLengths] at hS
    have hw := size64_nonneg c.width
    have h1 := size64_nonneg c.metrics.xmin
    have h2 := size64_nonneg c.metrics.ymin
    have e1 := add_errD hT hst.h (err_num hR.1 k) (by omega) (by linarith)
    have ex := add_errD hT hst.h ox (by omega) (by linarith)
    have ex' := sub_errD hT ex (err_num hR.2.1 (k + 1)) (by omega) (by linarith)
    have ey := add_errD hT hst.v ov (by omega) (by linarith)
    have ey' := add_errD hT ey (err_num hR.2.2 (k + 1)) (by omega) (by linarith)
    refine ⟨⟨e1.mono (by rw [shipSteps]; omega) (by rw [shipLengths]; linarith), hst.v.mono (by omega) (by rw [shipLengths]; linarith), ?_⟩, by rw [exactNode], hqm⟩
    exact forall₂_snoc hst.ops ⟨off_pair ex' ey' (by omega) (by omega) (by linarith) (by linarith) hGh hGv, rfl, rfl, rfl⟩
  | kern c =>
    rw [hNode, exactNode, hNode]
    rw [TameH] at hR
    rw [shipSteps] at hN
    rw [shipLengths] at hS
    have hw := size64_nonneg c.width
    have e1 := add_errD hT hst.h (err_num hR k) (by omega) (by linarith)
    exact ⟨⟨e1.mono (by rw [shipSteps]; omega) (by rw [shipLengths]), hst.v.mono (by omega) (by rw [shipLengths]; linarith), hst.ops⟩, by rw [exactNode], hqm⟩
  | glue g =>
    rw [hNode, exactNode, hNode]
    rw [TameH] at hR
    rw [shipSteps] at hN
    rw [shipLengths] at hS
    have hw := size64_nonneg g.width
    have hgs := glueSize_nonneg g
    have hK : size64 g.width + (if hd.sign = 0 then 0 else 2 * (R + 1)) ≤ size64 g.width + if hd.sign = 0 then 0 else glueSize g + 2 * (R + 1) := by
      split_ifs <;> linarith
    have hK0 : 0 ≤ (if hd.sign = 0 then 0 else 2 * (R + 1)) := by split_ifs <;> linarith
    obtain ⟨eg, eq⟩ := glue_errD hT hN2 hNR hR hF hq hA (by omega) hB (by linarith)
    have e1 := (addD hT (hst.h.mono (by omega) le_rfl) eg (by omega) (by linarith)).cast
      (show c + ((q'.g : ℚ) - q.g) + _ = c + (((glueStep (exactHead hd) (exactGlue g) q').2.g : ℚ) - (glueStep hd g q).2.g) by ring)
    exact ⟨⟨e1.mono (by rw [shipSteps]; omega) (by rw [shipLengths]; split_ifs <;> linarith), hst.v.mono (by omega) (by rw [shipLengths]; split_ifs <;> linarith), hst.ops⟩, by rw [exactNode], eq.mono (by rw [shipSteps]; omega) le_rfl⟩
  | box b =>
    rw [hNode, exactNode, hNode]
    rw [TameH] at hR
    rw [shipSteps] at hN
    rw [shipLengths, boxSize] at hS
    have hw := size64_nonneg b.width
    have hh := size64_nonneg b.height
    have hd' := size64_nonneg b.depth
    have e1 := add_errD hT hst.h (err_num hR k) (by omega) (by linarith)
    have hc : (pos (if isInf (exactBox b).height then (exactHead hd).box.height else (exactBox b).height) && pos (exactBox b).width) =
        (pos (if isInf b.height then hd.box.height else b.height) && pos b.width) := by
      show (pos (if isInf (exact64 b.height) then exact64 hd.box.height else exact64 b.height) && pos (exact64 b.width)) = _
      rw [exact64_isInf, exact64_pos, ← apply_ite exact64, exact64_pos]
    rw [hc]
    by_cases hc : (pos (if isInf b.height then hd.box.height else b.height) && pos b.width) = true
    · rw [if_pos hc, if_pos hc]; exact rfl
    · rw [if_neg hc, if_neg hc]
      exact ⟨⟨e1.mono (by rw [shipSteps]; omega) (by rw [shipLengths, boxSize]; linarith), hst.v.mono (by omega) (by rw [shipLengths, boxSize]; linarith), hst.ops⟩, by rw [exactNode], hqm⟩
  | rule b =>
    rw [hNode, exactNode, hNode]
    rw [TameH] at hR
    rw [shipSteps] at hN
    rw [shipLengths, boxSize] at hS
    have hw := size64_nonneg b.width
    have hh := size64_nonneg b.height
    have hd' := size64_nonneg b.depth
    have e1 := add_errD hT hst.h (err_num hR.1 k) (by omega) (by linarith)
    have hc : (pos (if isInf (exactBox b).height then (exactHead hd).box.height else (exactBox b).height) && pos (exactBox b).width) =
        (pos (if isInf b.height then hd.box.height else b.height) && pos b.width) := by
      show (pos (if isInf (exact64 b.height) then exact64 hd.box.height else exact64 b.height) && pos (exact64 b.width)) = _
      rw [exact64_isInf, exact64_pos, ← apply_ite exact64, exact64_pos]
    rw [hc]
    by_cases hc : (pos (if isInf b.height then hd.box.height else b.height) && pos b.width) = true
    · rw [if_pos hc, if_pos hc]
      obtain ⟨A, eA, hA, -⟩ := running_err hR.2.1 hH.height (k + 2)
      obtain ⟨B, eB, hB, -⟩ := running_err hR.2.2 hH.depth k
      have hA0 := err_size eA
      have hB0 := err_size eB
      have ex := add_errD hT hst.h ox (by omega) (by linarith)
      have ex' := add_errD hT ex (err_num hR.1 (k + 1)) (by omega) (by linarith)
      have ey := add_errD hT hb eB (by omega) (by linarith)
      have ey' := add_errD hT ey (err_mono ov (by omega) le_rfl) (by omega) (by linarith)
      have ey2 := add_errD hT ey' eA (by omega) (by linarith)
      refine ⟨⟨e1.mono (by rw [shipSteps]; omega) (by rw [shipLengths, boxSize]; linarith), hb.mono (by omega) (by rw [shipLengths, boxSize]; linarith), ?_⟩, by rw [exactNode], hqm⟩
      exact forall₂_snoc hst.ops ⟨off_pair ex ey' (by omega) (by omega) (by linarith) (by linarith) hGh hGv, off_pair ex' ey2 (by omega) (by omega) (by linarith) (by linarith) hGh hGv⟩
    · rw [if_neg hc, if_neg hc]
      exact ⟨⟨e1.mono (by rw [shipSteps]; omega) (by rw [shipLengths, boxSize]; linarith), hst.v.mono (by omega) (by rw [shipLengths, boxSize]; linarith), hst.ops⟩, by rw [exactNode], hqm⟩

theorem sim_leafV (hT : (1 + unit64) ^ N * T < 2 ^ (1024 : ℕ)) (hR0 : 0 ≤ R) (hN2 : N ≤ 2 ^ 52) (hNR : N * R ≤ 2 ^ 50) (hoh : ErrX 1 OS o.h o'.h) (hov : ErrX 1 OS o.v o'.v) (n : TNode F64)
    (hn : ∀ k hd cs, n ≠ .list k hd cs) : SimV N T G R OS o o' n := by
  intro hd left left' k S D A B Gc c db q q' st st' hR hH hD hB hF hq hA hb hst hGc hdb hG hk hN hS
  have hOS := err_size hoh
  have hSS := hb.size
  have hD0 : 0 ≤ D := le_trans (size64_nonneg hd.box.width) hD
  have ox := err_mono hoh hk le_rfl
  have ov := err_mono hov hk le_rfl
  have hsl := hq.slack
  have hab := abs_add_le c ((q'.g : ℚ) - q.g)
  have hnest : (0 : ℚ) ≤ setNest n := Nat.cast_nonneg _
  have hGc' : |c + ((q'.g : ℚ) - q.g)| ≤ Gc := by linarith only [hsl, hab, hGc]
  have hG1 : |c + ((q'.g : ℚ) - q.g)| ≤ G := by linarith only [hGc', hG, hnest]
  have hG2 : |db| ≤ G := by linarith only [hdb, hG, hnest]
  have hle := leeway_nonneg n
  have hqm : GlueRel R hd (k + shipSteps n) (A + glueLeeway n) q q' := hq.mono (by omega) (by linarith only [hle])
  have hGh := hG2
  have hGv := hG1
  cases n with
  | list a b c => exact absurd rfl (hn a b c)
  | char c => rw [vNode, exactNode, vNode]; exact rfl
  | accent c => rw [vNode, exactNode, vNode]; exact rfl
  | kern c =>
    rw [vNode, exactNode, vNode]
    rw [TameV] at hR
    rw [shipSteps] at hN
    rw [shipLengths] at hS
    have hw := size64_nonneg c.width
    have e1 := add_errD hT hst.v (err_num hR k) (by omega) (by linarith)
    exact ⟨⟨hst.h.mono (by omega) (by rw [shipLengths]; linarith), e1.mono (by rw [shipSteps]; omega) (by rw [shipLengths]), hst.ops⟩, by rw [exactNode], hqm⟩
  | glue g =>
    rw [vNode, exactNode, vNode]
    rw [TameV] at hR
    rw [shipSteps] at hN
    rw [shipLengths] at hS
    have hw := size64_nonneg g.width
    have hgs := glueSize_nonneg g
    have hK : size64 g.width + (if hd.sign = 0 then 0 else 2 * (R + 1)) ≤ size64 g.width + if hd.sign = 0 then 0 else glueSize g + 2 * (R + 1) := by
      split_ifs <;> linarith
    have hK0 : 0 ≤ (if hd.sign = 0 then 0 else 2 * (R + 1)) := by split_ifs <;> linarith
    obtain ⟨eg, eq⟩ := glue_errD hT hN2 hNR hR hF hq hA (by omega) hB (by linarith)
    have e1 := (addD hT (hst.v.mono (by omega) le_rfl) eg (by omega) (by linarith)).cast
      (show c + ((q'.g : ℚ) - q.g) + _ = c + (((glueStep (exactHead hd) (exactGlue g) q').2.g : ℚ) - (glueStep hd g q).2.g) by ring)
    exact ⟨⟨hst.h.mono (by omega) (by rw [shipLengths]; split_ifs <;> linarith), e1.mono (by rw [shipSteps]; omega) (by rw [shipLengths]; split_ifs <;> linarith), hst.ops⟩, by rw [exactNode], eq.mono (by rw [shipSteps]; omega) le_rfl⟩
  | box b =>
    rw [vNode, exactNode, vNode]
    rw [TameV] at hR
    rw [shipSteps] at hN
    rw [shipLengths, boxSize] at hS
    have hw := size64_nonneg b.width
    have hh := size64_nonneg b.height
    have hd' := size64_nonneg b.depth
    have hs := add_err hT (err_num hR.1 k) (err_num hR.2 k) (by omega) (by linarith)
    have e1 := add_errD hT (hst.v.mono (by omega) le_rfl) hs (by omega) (by linarith)
    have hc : (pos ((exactBox b).height + (exactBox b).depth) && pos (exactBox b).depth) = (pos (b.height + b.depth) && pos b.depth) := by
      show (pos (exact64 b.height + exact64 b.depth) && pos (exact64 b.depth)) = _
      rw [exact64_pos, ← pos_sum (T := T) b.height b.depth hR.1 hR.2 (by linarith) hT (by omega)]
    rw [hc]
    by_cases hc : (pos (b.height + b.depth) && pos b.depth) = true
    · rw [if_pos hc, if_pos hc]
      exact ⟨⟨hst.h.mono (by omega) (by rw [shipLengths, boxSize]; linarith), e1.mono (by rw [shipSteps]; omega) (by rw [shipLengths, boxSize]; linarith), hst.ops⟩, by rw [exactNode], hqm⟩
    · rw [if_neg hc, if_neg hc]
      exact ⟨hst.mono (by omega) (by rw [shipLengths, boxSize]; linarith), by rw [exactNode], hqm⟩
  | rule b =>
    rw [vNode, exactNode, vNode]
    rw [TameV] at hR
    rw [shipSteps] at hN
    rw [shipLengths, boxSize] at hS
    have hw := size64_nonneg b.width
    have hh := size64_nonneg b.height
    have hd' := size64_nonneg b.depth
    have hs := add_err hT (err_num hR.1 k) (err_num hR.2.1 k) (by omega) (by linarith)
    have e1 := add_errD hT (hst.v.mono (by omega) le_rfl) hs (by omega) (by linarith)
    have hc : (pos ((exactBox b).height + (exactBox b).depth) && pos (exactBox b).depth) = (pos (b.height + b.depth) && pos b.depth) := by
      show (pos (exact64 b.height + exact64 b.depth) && pos (exact64 b.depth)) = _
      rw [exact64_pos, ← pos_sum (T := T) b.height b.depth hR.1 hR.2.1 (by linarith) hT (by omega)]
    rw [hc]
    by_cases hc : (pos (b.height + b.depth) && pos b.depth) = true
    · rw [if_pos hc, if_pos hc]
      obtain ⟨A, eA, hA, -⟩ := running_err hR.2.2 hH.width (k + 1)
      have hA0 := err_size eA
      have ex := add_errD hT hst.h ox (by omega) (by linarith)
      have ex' := add_errD hT ex eA (by omega) (by linarith)
      have ey := add_errD hT e1 (err_mono ov (by omega) le_rfl) (by omega) (by linarith)
      have ey2 := add_errD hT ey (err_mono hs (by omega) le_rfl) (by omega) (by linarith)
      refine ⟨⟨hst.h.mono (by omega) (by rw [shipLengths, boxSize]; linarith), e1.mono (by rw [shipSteps]; omega) (by rw [shipLengths, boxSize]; linarith), ?_⟩, by rw [exactNode], hqm⟩
      exact forall₂_snoc hst.ops ⟨off_pair ex ey (by omega) (by omega) (by linarith) (by linarith) hGh hGv, off_pair ex' ey2 (by omega) (by omega) (by linarith) (by linarith) hGh hGv⟩
    · rw [if_neg hc, if_neg hc]
      exact ⟨hst.mono (by omega) (by rw [shipLengths, boxSize]; linarith), by rw [exactNode], hqm⟩

theorem isEmpty_exact (cs : List (TNode F64)) : (exactNodes cs).isEmpty = cs.isEmpty := by
  cases cs <;> rw [exactNodes] <;> rfl

theorem sim_all (hT : (1 + unit64) ^ N * T < 2 ^ (1024 : ℕ)) (hR0 : 0 ≤ R) (hN2 : N ≤ 2 ^ 52) (hNR : N * R ≤ 2 ^ 50) (hoh : ErrX 1 OS o.h o'.h) (hov : ErrX 1 OS o.v o'.v) (n : TNode F64) :
    SimH N T G R OS o o' n ∧ SimV N T G R OS o o' n := by
  refine tnode_ind (P := fun n => SimH N T G R OS o o' n ∧ SimV N T G R OS o o' n)
    (fun n hn => ⟨sim_leafH hT hR0 hN2 hNR hoh hov n hn, sim_leafV hT hR0 hN2 hNR hoh hov n hn⟩) ?_ n
  intro knd nd cs ih
  have ihH := simHs hR0 fun c hc => (ih c hc).1
  have ihV := simVs hR0 fun c hc => (ih c hc).2
  have hOS := err_size hoh
  have hw := size64_nonneg nd.box.width
  have hh := size64_nonneg nd.box.height
  have hdp := size64_nonneg nd.box.depth
  have hsh := size64_nonneg nd.shift
  have hL := lengthsAll_nonneg hR0 nd.sign cs
  have hns' : ((if nd.sign = 0 then 0 else 1 : ℚ)) = setSlack nd := rfl
  have hsl0 := setSlack_nonneg nd
  have hzero : ∀ d : ℚ, d = d + (((GlueSt.zero : GlueSt XR).g : ℚ) - ((GlueSt.zero : GlueSt F64).g : ℚ)) := by
    intro d; show d = d + (((0 : ℤ) : ℚ) - ((0 : ℤ) : ℚ)); simp
  constructor
  · intro hd base base' k S D A B Gc c db q q' st st' hR hH hD hB hF hq hA hb hst hGc hdb hG hk hN hS
    have hSS := hb.size
    have hD0 : 0 ≤ D := le_trans (by have := size64_nonneg hd.box.height; have := size64_nonneg hd.box.depth; linarith) hD
    rw [shipSteps] at hN ⊢
    rw [shipLengths, boxSize] at hS ⊢
    have hsl := hq.slack
    have hab := abs_add_le c ((q'.g : ℚ) - q.g)
    have hGc' : |c + ((q'.g : ℚ) - q.g)| ≤ Gc := by linarith only [hsl, hab, hGc]
    have hqm : GlueRel R hd (k + (4 + shipStepsAll cs)) (A + glueLeeway (.list knd nd cs)) q q' := hq.mono (by omega) (by linarith only [leeway_nonneg (.list knd nd cs)])
    rw [setNest] at hG
    push_cast [Nat.cast_add] at hG
    rw [hns'] at hG
    have hBT : nd.sign ≠ 0 → glueTotal cs ≤ T := fun hs => by
      have := total_le hR0 hs cs
      linarith only [this, hS, hL, hw, hh, hdp, hsh, hSS, hOS, hD0]
    cases knd with
    | plain =>
      rw [hNode, exactNode, hNode]
      rw [TameH] at hR
      have e1 := add_errD hT hst.h (err_num hR k) (by omega) (by linarith)
      have hc : (pos (if isInf (exactHead nd).box.height then (exactHead hd).box.height else (exactHead nd).box.height) && pos (exactHead nd).box.width) =
          (pos (if isInf nd.box.height then hd.box.height else nd.box.height) && pos nd.box.width) := by
        show (pos (if isInf (exact64 nd.box.height) then exact64 hd.box.height else exact64 nd.box.height) && pos (exact64 nd.box.width)) = _
        rw [exact64_isInf, exact64_pos, ← apply_ite exact64, exact64_pos]
      rw [hc]
      by_cases hc : (pos (if isInf nd.box.height then hd.box.height else nd.box.height) && pos nd.box.width) = true
      · rw [if_pos hc, if_pos hc]; exact rfl
      · rw [if_neg hc, if_neg hc]
        exact ⟨⟨e1.mono (by omega) (by linarith), hst.v.mono (by omega) (by linarith), hst.ops⟩, by rw [exactNode], hqm⟩
    | h =>
      rw [hNode, exactNode, hNode, isEmpty_exact]
      rw [TameH] at hR
      have e1 := add_errD hT hst.h (err_num hR.1.width k) (by omega) (by linarith)
      by_cases hc : cs.isEmpty = true
      · rw [if_pos hc, if_pos hc]
        exact ⟨⟨e1.mono (by omega) (by linarith), hst.v.mono (by omega) (by linarith), hst.ops⟩, by rw [exactNode], hqm⟩
      · rw [if_neg hc, if_neg hc]
        have eb := add_errD hT hb (err_num hR.1.shift k) (by omega) (by linarith)
        refine Alike.bind (ihH nd _ _ (k + 1) (S + size64 nd.shift) (size64 nd.box.height + size64 nd.box.depth) 0 (glueTotal cs) (Gc + setSlack nd) (c + ((q'.g : ℚ) - q.g)) db _ _ _ _ hR.2 ⟨hR.1.width, hR.1.height, hR.1.depth⟩ le_rfl hBT
          (gluesFin hR.1 nd rfl rfl) (GlueRel.zero hR0 nd _) (by linarith only) eb ⟨(hst.h.mono (by omega) (by linarith)).cast (hzero _), eb, hst.ops⟩
          (by linarith only [hGc']) (by linarith only [hdb, hsl0]) (by linarith only [hG]) (by omega) (by omega) (by linarith)) ?_
        rintro ⟨s1, l1⟩ ⟨s1', l1'⟩ ⟨e5, e6⟩
        dsimp only at e6; subst e6
        exact ⟨⟨e1.mono (by omega) (by linarith), hb.mono (by omega) (by linarith), e5⟩, by rw [exactNode], hqm⟩
    | v =>
      rw [hNode, exactNode, hNode, isEmpty_exact]
      rw [TameH] at hR
      have e1 := add_errD hT hst.h (err_num hR.1.width k) (by omega) (by linarith)
      by_cases hc : cs.isEmpty = true
      · rw [if_pos hc, if_pos hc]
        exact ⟨⟨e1.mono (by omega) (by linarith), hst.v.mono (by omega) (by linarith), hst.ops⟩, by rw [exactNode], hqm⟩
      · rw [if_neg hc, if_neg hc]
        have eb := add_errD hT hb (err_num hR.1.shift k) (by omega) (by linarith)
        have ev := sub_errD hT eb (err_num hR.1.height (k + 1)) (by omega) (by linarith)
        refine Alike.bind (ihV nd _ _ (k + 2) (S + size64 nd.shift + size64 nd.box.height) (size64 nd.box.width) 0 (glueTotal cs) (Gc + setSlack nd) db (c + ((q'.g : ℚ) - q.g)) _ _ _ _ hR.2 ⟨hR.1.width, hR.1.height, hR.1.depth⟩ le_rfl hBT
          (gluesFin hR.1 nd rfl rfl) (GlueRel.zero hR0 nd _) (by linarith only) (hst.h.mono (by omega) (by linarith)) ⟨hst.h.mono (by omega) (by linarith), ev.cast (hzero _), hst.ops⟩
          (by linarith only [hdb]) (by linarith only [hGc', hsl0]) (by linarith only [hG]) (by omega) (by omega) (by linarith)) ?_
        rintro ⟨s1, l1⟩ ⟨s1', l1'⟩ ⟨e5, e6⟩
        dsimp only at e6; subst e6
        exact ⟨⟨e1.mono (by omega) (by linarith), hb.mono (by omega) (by linarith), e5⟩, by rw [exactNode], hqm⟩
  · intro hd left left' k S D A B Gc c db q q' st st' hR hH hD hB hF hq hA hb hst hGc hdb hG hk hN hS
    have hSS := hb.size
    have hD0 : 0 ≤ D := le_trans (size64_nonneg hd.box.width) hD
    rw [shipSteps] at hN ⊢
    rw [shipLengths, boxSize] at hS ⊢
    have hsl := hq.slack
    have hab := abs_add_le c ((q'.g : ℚ) - q.g)
    have hGc' : |c + ((q'.g : ℚ) - q.g)| ≤ Gc := by linarith only [hsl, hab, hGc]
    have hqm : GlueRel R hd (k + (4 + shipStepsAll cs)) (A + glueLeeway (.list knd nd cs)) q q' := hq.mono (by omega) (by linarith only [leeway_nonneg (.list knd nd cs)])
    rw [setNest] at hG
    push_cast [Nat.cast_add] at hG
    rw [hns'] at hG
    have hBT : nd.sign ≠ 0 → glueTotal cs ≤ T := fun hs => by
      have := total_le hR0 hs cs
      linarith only [this, hS, hL, hw, hh, hdp, hsh, hSS, hOS, hD0]
    cases knd with
    | plain =>
      rw [vNode, exactNode, vNode]
      rw [TameV] at hR
      have hs := add_err hT (err_num hR.1 k) (err_num hR.2 k) (by omega) (by linarith)
      have e1 := add_errD hT (hst.v.mono (by omega) le_rfl) hs (by omega) (by linarith)
      have hc : (pos ((exactHead nd).box.height + (exactHead nd).box.depth) && pos (exactHead nd).box.depth) =
          (pos (nd.box.height + nd.box.depth) && pos nd.box.depth) := by
        show (pos (exact64 nd.box.height + exact64 nd.box.depth) && pos (exact64 nd.box.depth)) = _
        rw [exact64_pos, ← pos_sum (T := T) nd.box.height nd.box.depth hR.1 hR.2 (by linarith) hT (by omega)]
      rw [hc]
      by_cases hc : (pos (nd.box.height + nd.box.depth) && pos nd.box.depth) = true
      · rw [if_pos hc, if_pos hc]
        exact ⟨⟨hst.h.mono (by omega) (by linarith), e1.mono (by omega) (by linarith), hst.ops⟩, by rw [exactNode], hqm⟩
      · rw [if_neg hc, if_neg hc]
        exact ⟨hst.mono (by omega) (by linarith), by rw [exactNode], hqm⟩
    | h =>
      rw [vNode, exactNode, vNode, isEmpty_exact]
      rw [TameV] at hR
      have hs := add_err hT (err_num hR.1.height k) (err_num hR.1.depth k) (by omega) (by linarith)
      have e1 := add_errD hT (hst.v.mono (by omega) le_rfl) hs (by omega) (by linarith)
      by_cases hc : cs.isEmpty = true
      · rw [if_pos hc, if_pos hc]
        exact ⟨⟨hst.h.mono (by omega) (by linarith), e1.mono (by omega) (by linarith), hst.ops⟩, by rw [exactNode], hqm⟩
      · rw [if_neg hc, if_neg hc]
        have ev := add_errD hT hst.v (err_num hR.1.height k) (by omega) (by linarith)
        have eh := add_errD hT hb (err_num hR.1.shift k) (by omega) (by linarith)
        have ed := add_errD hT ev (err_num hR.1.depth (k + 1)) (by omega) (by linarith)
        refine Alike.bind (ihH { nd with box := { nd.box with width := hd.box.width } } _ _ (k + 1) (S + size64 nd.shift + size64 nd.box.height)
          (size64 nd.box.height + size64 nd.box.depth) 0 (glueTotal cs) (Gc + setSlack nd) db (c + ((q'.g : ℚ) - q.g)) _ _ _ _ hR.2 ⟨hH.width, hR.1.height, hR.1.depth⟩ le_rfl hBT
          (gluesFin hR.1 _ rfl rfl) (GlueRel.zero hR0 _ _) (by linarith only) (ev.mono le_rfl (by linarith)) ⟨(eh.mono le_rfl (by linarith)).cast (hzero _), ev.mono le_rfl (by linarith), hst.ops⟩
          (by linarith only [hdb, show setSlack { nd with box := { nd.box with width := hd.box.width } } = setSlack nd from rfl]) (by linarith only [hGc', hsl0]) (by linarith only [hG]) (by omega) (by omega) (by linarith)) ?_
        rintro ⟨s1, l1⟩ ⟨s1', l1'⟩ ⟨e5, e6⟩
        dsimp only at e6; subst e6
        exact ⟨⟨hb.mono (by omega) (by linarith), ed.mono (by omega) (by linarith), e5⟩, by rw [exactNode]; rfl, hqm⟩
    | v =>
      rw [vNode, exactNode, vNode, isEmpty_exact]
      rw [TameV] at hR
      have hs := add_err hT (err_num hR.1.height k) (err_num hR.1.depth k) (by omega) (by linarith)
      have e1 := add_errD hT (hst.v.mono (by omega) le_rfl) hs (by omega) (by linarith)
      by_cases hc : cs.isEmpty = true
      · rw [if_pos hc, if_pos hc]
        exact ⟨⟨hst.h.mono (by omega) (by linarith), e1.mono (by omega) (by linarith), hst.ops⟩, by rw [exactNode], hqm⟩
      · rw [if_neg hc, if_neg hc]
        have ev := add_errD hT hst.v (err_num hR.1.height k) (by omega) (by linarith)
        have ev2 := sub_errD hT ev (err_num hR.1.height (k + 1)) (by omega) (by linarith)
        have eh := add_errD hT hb (err_num hR.1.shift k) (by omega) (by linarith)
        have ed := add_errD hT ev (err_num hR.1.depth (k + 1)) (by omega) (by linarith)
        refine Alike.bind (ihV { nd with box := { nd.box with width := hd.box.width } } _ _ (k + 2) (S + size64 nd.shift + size64 nd.box.height + size64 nd.box.height)
          D 0 (glueTotal cs) (Gc + setSlack nd) (c + ((q'.g : ℚ) - q.g)) db _ _ _ _ hR.2 ⟨hH.width, hR.1.height, hR.1.depth⟩ hD hBT
          (gluesFin hR.1 _ rfl rfl) (GlueRel.zero hR0 _ _) (by linarith only) (eh.mono (by omega) (by linarith)) ⟨eh.mono (by omega) (by linarith), (ev2.mono le_rfl (by linarith)).cast (hzero _), hst.ops⟩
          (by linarith only [hGc', show setSlack { nd with box := { nd.box with width := hd.box.width } } = setSlack nd from rfl]) (by linarith only [hdb, hsl0]) (by linarith only [hG]) (by omega) (by omega) (by linarith)) ?_
        rintro ⟨s1, l1⟩ ⟨s1', l1'⟩ ⟨e5, e6⟩
        dsimp only at e6; subst e6
        exact ⟨⟨hb.mono (by omega) (by linarith), ed.mono (by omega) (by linarith), e5⟩, by rw [exactNode]; rfl, hqm⟩

end

/-- Ship in float64 and with exact numbers. -/
theorem ship_err {ox oy : F64} {hd : LHead F64} {cs : List (TNode F64)} (hx : Fin64 ox) (hy : Fin64 oy) (hR0 : 0 ≤ R) (hH : TameList R hd cs) (hR : TameHs R cs) (hN2 : N ≤ 2 ^ 52) (hNR : N * R ≤ 2 ^ 50)
    (hN : N = shipStepsAll cs + 1) (hT0 : T = size64 ox + size64 oy + 2 * (size64 hd.box.height + size64 hd.box.depth) + shipLengthsAll R hd.sign cs)
    (hT : (1 + unit64) ^ N * T < 2 ^ (1024 : ℕ)) (hG : G = setSlack hd + setNests cs) :
    Alike (fun a b : ShipSt _ × _ => List.Forall₂ (SameDraw (drawErr N T G)) a.1.ops b.1.ops)
      (shipCall ox oy hd cs) (shipCall (exact64 ox) (exact64 oy) (exactHead hd) (exactNodes cs)) := by
  have h1 := size64_nonneg ox
  have h2 := size64_nonneg oy
  have h3 := size64_nonneg hd.box.height
  have h4 := size64_nonneg hd.box.depth
  have hL := lengthsAll_nonneg hR0 hd.sign cs
  have hz := err_num fin_zero64 1
  rw [size_zero64, exact64_zero] at hz
  have ov := add_err hT (err_num hy 0) (err_num hH.height 0) (by omega) (by linarith)
  have hoh : ErrX 1 (size64 ox + size64 oy + size64 hd.box.height) ox (exact64 ox) := err_mono (err_num hx 1) le_rfl (by linarith)
  have hov : ErrX 1 (size64 ox + size64 oy + size64 hd.box.height) (oy + hd.box.height) (exact64 oy + (exactHead hd).box.height) :=
    err_mono ov le_rfl (by linarith)
  rw [shipCall, shipCall]
  have hsl := setSlack_nonneg hd
  have hB : hd.sign ≠ 0 → glueTotal cs ≤ T := fun hs => by
    have := total_le hR0 hs cs
    linarith only [this, hT0, h1, h2, h3, h4]
  have hz0 : (0 : ℚ) = 0 + (((GlueSt.zero : GlueSt XR).g : ℚ) - ((GlueSt.zero : GlueSt F64).g : ℚ)) := by
    show (0 : ℚ) = 0 + (((0 : ℤ) : ℚ) - ((0 : ℤ) : ℚ)); simp
  refine Alike.bind (simHs (o := ⟨ox, oy + hd.box.height⟩) (o' := ⟨exact64 ox, exact64 oy + (exactHead hd).box.height⟩) hR0
    (fun c _ => (sim_all hT hR0 hN2 hNR hoh hov c).1) hd zero zero 1 0 (size64 hd.box.height + size64 hd.box.depth) 0 (glueTotal cs) (setSlack hd) 0 0 _ _ _ _ hR
    ⟨hH.width, hH.height, hH.depth⟩ le_rfl hB (gluesFin hH hd rfl rfl) (GlueRel.zero hR0 hd 1) (by linarith only) hz.d ⟨hz.d.cast hz0, hz.d, .nil⟩
    (by rw [abs_zero]; linarith only) (by rw [abs_zero]; exact hsl) hG.ge le_rfl (by omega) (by linarith)) ?_
  rintro ⟨s1, l1⟩ ⟨s1', l1'⟩ ⟨e5, -⟩
  exact e5

end Verif
