import Verif.Lemmas.Depends
import Verif.Lemmas.Tidy
import Verif.Props.Doc
import Verif.Spec.Depends
import Verif.Props.Operators
import Verif.Props.Render
import Verif.Props.Context
import Verif.Props.Concat
/-! # C91: what the drawing depends on -/

namespace Verif.Props
open Verif Verif.Spec GoFloat
variable {F H : Type} [GoFloat F]

theorem bool_of_iff {a b : Bool} (h : a = true ↔ b = true) : a = b := by
  cases a <;> cases b <;> simp_all

/-- The symbols of a tree that was parsed are found to be full stops of numbers never. -/
theorem dotsApart_parse {U : Nat → Bool} {x : GoString} {n : Node} (h : parseExpr U x = .ok n) : DotsApart x (allNodes n) := by
  intro k hk p hp
  have hl := parse_local h k hk
  rcases hp with rfl | ⟨args, rfl⟩
  · have hx : ∃ c, x.drop p = ch!"." :: c := by
      simp only [Local, slice, List.length_cons, List.length_nil] at hl
      rw [show p + (0 + 1) - p = 1 by omega] at hl
      cases hd : x.drop p with
      | nil => rw [hd] at hl; cases hl
      | cons a c => rw [hd] at hl; cases hl; exact ⟨c, rfl⟩
    obtain ⟨c, hx⟩ := hx
    rw [hx]
    simp [indexDot, dotInNumber]
  · obtain ⟨⟨w, rest, y, -, h1, -⟩, -⟩ := hl
    cases h1

theorem alike_of_drawn {U : Nat → Bool} {x y : GoString} {n m : Node} (hx : parseExpr U x = .ok n) (hy : parseExpr U y = .ok m)
    (h : DrawnAlike x y n m) : Alike x y n m := by
  refine alike_of n m h.same (h.tight.imp fun a b hab => bool_of_iff ?_) (fun p t hk hd => bool_of_iff ?_) (dotsApart_parse hx) (dotsApart_parse hy)
  · unfold tightB
    rw [tight_iff, tight_iff]
    exact hab
  · rw [dotInNumber_iff, dotInNumber_iff]
    exact h.dots ⟨p, t, hk, hd⟩

/-- **C91** What mtex.Render draws, or that and how it panics, depends on the source only through its tree without the positions,
the binary operators right after an opening bracket, and, if there are decimal numbers, whether the first full stop of the
source is between digits. -/
theorem C91_render (U : Nat → Bool) (e : TtfEnv H) (num : GoString → Option F) (x y : GoString) (n m : Node) (hx : parseExpr U x = .ok n)
    (hy : parseExpr U y = .ok m) (h : DrawnAlike x y n m) (size dpi : F) : renderT U e num x size dpi = renderT U e num y size dpi := by
  unfold renderT
  rw [mtexParseT_alike U U e num size (ofInt 72) hx hy (alike_of_drawn hx hy h)]

/-- **C91** The same for mtex.Parse with any backend. -/
theorem C91_parse (U : Nat → Bool) (be : Backend F) (num : GoString → Option F) (x y : GoString) (n m : Node) (hx : parseExpr U x = .ok n)
    (hy : parseExpr U y = .ok m) (h : DrawnAlike x y n m) (size dpi : F) : mtexParse U be num x size dpi = mtexParse U be num y size dpi := by
  unfold mtexParse
  rw [hx, hy]
  simp only [Res.ok_bind, collect_alike be num _ _ (alike_of_drawn hx hy h)]

/-! ## Line breaks and comments before a source -/

mutual
theorem bare_shift (d : Nat) : ∀ n, bare (shift d n) = bare n
  | .nil => rfl
  | .list l => by simp only [shift, bare, bareL_shift d l]
  | .macro none l => by simp only [shift, bare, bareL_shift d l, Option.map_none]
  | .macro (some _) l => by simp only [shift, bare, bareL_shift d l, Option.map_some]
  | .arg _ l _ => by simp only [shift, bare, bareL_shift d l]
  | .optArg _ l _ => by simp only [shift, bare, bareL_shift d l]
  | .ident _ _ => rfl
  | .math _ _ l _ => by simp only [shift, bare, bareL_shift d l]
  | .word _ _ => rfl
  | .lit _ _ => rfl
  | .sym _ _ => rfl
  | .sub _ n => by simp only [shift, bare, bare_shift d n]
  | .sup _ n => by simp only [shift, bare, bare_shift d n]
theorem bareL_shift (d : Nat) : ∀ l, bareL (shiftL d l) = bareL l
  | [] => rfl
  | n :: l => by simp only [shiftL, bareL, bare_shift d n, bareL_shift d l]
end

mutual
theorem leaves_shift (d : Nat) : ∀ n, leaves (shift d n) = (leaves n).map fun q => (q.1 + d, q.2)
  | .nil => rfl
  | .list l => by simp only [shift, leaves, leavesL_shift d l]
  | .macro none l => by simp only [shift, leaves, leavesL_shift d l, Option.map_none]
  | .macro (some _) l => by simp only [shift, leaves, leavesL_shift d l, Option.map_some, List.map_cons]
  | .arg _ l _ => by simp only [shift, leaves, leavesL_shift d l]
  | .optArg _ l _ => by simp only [shift, leaves, leavesL_shift d l]
  | .ident _ _ => rfl
  | .math _ _ l _ => by simp only [shift, leaves, leavesL_shift d l]
  | .word _ _ => rfl
  | .lit _ _ => rfl
  | .sym _ _ => rfl
  | .sub _ n => by simp only [shift, leaves, leaves_shift d n]
  | .sup _ n => by simp only [shift, leaves, leaves_shift d n]
theorem leavesL_shift (d : Nat) : ∀ l, leavesL (shiftL d l) = (leavesL l).map fun q => (q.1 + d, q.2)
  | [] => rfl
  | n :: l => by simp only [shiftL, leavesL, leaves_shift d n, leavesL_shift d l, List.map_append]
end

/-- The openers. -/
theorem openers_ne (b : Nat) (h : b ∈ [ch!"{", ch!"(", ch!"[", ch!"<"]) : b ≠ 32 ∧ b ≠ 10 ∧ b ≠ 9 ∧ b ≠ 13 := by
  simp at h
  omega

/-- A prefix that ends with neither an opener nor a blank is no context for an operator. -/
theorem tight_prefix {w x : GoString} (hw : ∀ a b, w = a ++ [b] → b ≠ 32 ∧ b ∉ [ch!"{", ch!"(", ch!"[", ch!"<"]) (p : Nat) (t : GoString) :
    Tight (w ++ x) (p + w.length) t ↔ Tight x p t := by
  unfold Tight
  refine and_congr_right fun _ => ?_
  have e : (w ++ x).take (p + w.length) = w ++ x.take p := by
    rw [Nat.add_comm, List.take_length_add_append]
  rw [e]
  constructor
  · rintro ⟨a, b, n, h, hb⟩
    rcases List.append_eq_append_iff.1 h with ⟨c, h1, h2⟩ | ⟨c, h1, h2⟩
    · rcases List.eq_nil_or_concat c with rfl | ⟨c, d, rfl⟩
      · simp only [List.append_nil] at h1
        exact absurd hb (hw a b h1.symm).2
      · rw [List.concat_eq_append, ← List.append_assoc] at h1
        obtain ⟨h3, h4⟩ := List.append_inj' h1 rfl
        cases h4
        exact ⟨c, b, n, by rw [h2, List.concat_eq_append], hb⟩
    · exfalso
      rcases List.eq_nil_or_concat c with rfl | ⟨c, d, rfl⟩
      · simp only [List.append_nil] at h1
        exact absurd hb (hw a b h1).2
      · have hd : d ∈ List.replicate n 32 := by rw [h2]; simp
        rw [List.concat_eq_append, ← List.append_assoc] at h1
        exact (hw _ d h1).1 (List.eq_of_mem_replicate hd)
  · rintro ⟨a, b, n, h, hb⟩
    exact ⟨w ++ a, b, n, by rw [h]; simp, hb⟩

theorem dot_prefix {w x : GoString} (h1 : ch!"." ∉ w) (h2 : ∀ a b, w = a ++ [b] → ¬ (48 ≤ b ∧ b ≤ 57)) :
    FirstDotDecimal (w ++ x) ↔ FirstDotDecimal x := by
  constructor
  · rintro ⟨a, d, e, b, h, ha, hd⟩
    rw [List.append_assoc] at h
    rcases List.append_eq_append_iff.1 h with ⟨c, h3, h4⟩ | ⟨c, h3, h4⟩
    · exact ⟨c, d, e, b, by rw [h4, List.append_assoc], by rw [h3] at ha; simp at ha; exact ha.2, hd⟩
    · rcases c with _ | ⟨u, _ | ⟨v, c⟩⟩
      · exact ⟨[], d, e, b, by simpa using h4.symm, by simp, hd⟩
      · simp only [List.cons_append, List.nil_append, List.cons.injEq] at h4
        obtain ⟨rfl, -⟩ := h4
        exact absurd ⟨hd.1, hd.2.1⟩ (h2 a d h3)
      · simp only [List.cons_append, List.nil_append, List.cons.injEq] at h4
        obtain ⟨rfl, rfl, -⟩ := h4
        exact absurd (by rw [h3]; simp) h1
  · rintro ⟨a, d, e, b, rfl, ha, hd⟩
    exact ⟨w ++ a, d, e, b, by simp, by simp [h1, ha], hd⟩

theorem drawn_shift {w x : GoString} {n : Node} (h1 : ∀ a b, w = a ++ [b] → b ≠ 32 ∧ b ∉ [ch!"{", ch!"(", ch!"[", ch!"<"] ∧ ¬ (48 ≤ b ∧ b ≤ 57))
    (h2 : HasDecimal n → ch!"." ∉ w) : DrawnAlike x (w ++ x) n (shift w.length n) := by
  refine ⟨(bare_shift _ n).symm, ?_, fun hd => (dot_prefix (h2 hd) fun a b e => (h1 a b e).2.2).symm⟩
  rw [leaves_shift]
  generalize leaves n = l
  induction l with
  | nil => exact .nil
  | cons q l ih => exact .cons (tight_prefix (fun a b e => ⟨(h1 a b e).1, (h1 a b e).2.1⟩) q.1 q.2).symm ih

theorem render_shift (U : Nat → Bool) (e : TtfEnv H) (num : GoString → Option F) (w x : GoString) (size dpi : F)
    (hp : parseExpr U (w ++ x) = (parseExpr U x).map (shift w.length)) (h1 : ∀ a b, w = a ++ [b] → b ≠ 32 ∧ b ∉ [ch!"{", ch!"(", ch!"[", ch!"<"] ∧ ¬ (48 ≤ b ∧ b ≤ 57))
    (h2 : ∀ n, parseExpr U x = .ok n → HasDecimal n → ch!"." ∉ w) : renderT U e num (w ++ x) size dpi = renderT U e num x size dpi := by
  cases hx : parseExpr U x with
  | ok n =>
    rw [hx] at hp
    exact (C91_render U e num x (w ++ x) n _ hx hp (drawn_shift h1 (h2 n hx)) size dpi).symm
  | panic p =>
    have hp' : parseExpr U (w ++ x) = .panic p := by rw [hp, hx]; rfl
    unfold renderT mtexParseT
    rw [hp', hx]
    simp only [Res.panic_bind, Res.fuel_bind]
  | fuel =>
    have hp' : parseExpr U (w ++ x) = .fuel := by rw [hp, hx]; rfl
    unfold renderT mtexParseT
    rw [hp', hx]
    simp only [Res.panic_bind, Res.fuel_bind]

/-- **C91** Tabs, newlines and carriage returns before a source do not change what is drawn. -/
theorem C91_breaks (U : Nat → Bool) (e : TtfEnv H) (num : GoString → Option F) (w x : GoString) (size dpi : F) (hw : ∀ b ∈ w, isBreak b = true)
    (hx : ¬ bom <+: x) : renderT U e num (w ++ x) size dpi = renderT U e num x size dpi := by
  have hb : ∀ b ∈ w, b = 9 ∨ b = 10 ∨ b = 13 := by
    intro b hb
    have := hw b hb
    simp [isBreak] at this
    omega
  refine render_shift U e num w x size dpi (C07_leading_breaks U w x hw hx) (fun a b h => ?_) (fun n _ _ hd => ?_)
  · have := hb b (by rw [h]; simp)
    simp
    omega
  · have := hb _ hd
    omega

/-- **C91** A comment without a double quote before a source does not change what is drawn, if the comment has no full stop or
the source has no decimal number. -/
theorem C91_comment (U : Nat → Bool) (e : TtfEnv H) (num : GoString → Option F) (body x : GoString) (size dpi : F) (h1 : ch!"\n" ∉ body)
    (h2 : ch!"\"" ∉ body) (hx : ¬ bom <+: x) (hd : ch!"." ∉ body ∨ ∀ n, parseExpr U x = .ok n → ¬ HasDecimal n) :
    renderT U e num (bs!"%" ++ body ++ bs!"\n" ++ x) size dpi = renderT U e num x size dpi := by
  have hp := C08_comment_line U body x h1 h2 hx
  rw [show body.length + 2 = (bs!"%" ++ body ++ bs!"\n").length by simp] at hp
  refine render_shift U e num _ x size dpi hp (fun a b h => ?_) (fun n hn hdn hm => ?_)
  · obtain ⟨-, h⟩ := List.append_inj' h rfl
    cases h
    simp
  · rcases hd with hd | hd
    · simp at hm
      exact hd hm
    · exact hd n hn hdn

/-! ## Lines -/

theorem leavesL_append (l k : List Node) : leavesL (l ++ k) = leavesL l ++ leavesL k := by
  induction l with
  | nil => rfl
  | cons n l ih => simp only [List.cons_append, leavesL, ih, List.append_assoc]
theorem allNodesL_append (l k : List Node) : allNodesL (l ++ k) = allNodesL l ++ allNodesL k := by
  induction l with
  | nil => rfl
  | cons n l ih => simp only [List.cons_append, allNodesL, ih, List.append_assoc]

mutual
theorem sym_leaf1 (p : Nat) (t : GoString) : ∀ n, .sym p t ∈ allNodes n → (p, t) ∈ leaves n
  | .nil, h => by simp [allNodes] at h
  | .list l, h => by simp [allNodes] at h; exact sym_leaf p t l h
  | .macro none l, h => by simp [allNodes] at h; exact sym_leaf p t l h
  | .macro (some _) l, h => by simp [allNodes] at h; exact List.mem_cons_of_mem _ (sym_leaf p t l h)
  | .arg _ l _, h => by simp [allNodes] at h; exact sym_leaf p t l h
  | .optArg _ l _, h => by simp [allNodes] at h; exact sym_leaf p t l h
  | .ident _ _, h => by simp [allNodes] at h
  | .math _ _ l _, h => by simp [allNodes] at h; exact sym_leaf p t l h
  | .word _ _, h => by simp [allNodes] at h
  | .lit _ _, h => by simp [allNodes] at h
  | .sym _ _, h => by simp [allNodes] at h; simp [leaves, h]
  | .sub _ n, h => by simp [allNodes] at h; exact sym_leaf1 p t n h
  | .sup _ n, h => by simp [allNodes] at h; exact sym_leaf1 p t n h
theorem sym_leaf (p : Nat) (t : GoString) : ∀ l, .sym p t ∈ allNodesL l → (p, t) ∈ leavesL l
  | [], h => by simp [allNodesL] at h
  | n :: l, h => by
    simp only [allNodesL, List.mem_append] at h
    simp only [leavesL, List.mem_append]
    exact h.imp (sym_leaf1 p t n) (sym_leaf p t l)
end

mutual
theorem lit_shift1 {d : Nat} : ∀ (n : Node) (p : Nat) (t : GoString), .lit p t ∈ allNodes (shift d n) → ∃ p', .lit p' t ∈ allNodes n
  | .nil, p, t, h => by simp [shift, allNodes] at h
  | .list l, p, t, h => by simp [shift, allNodes] at h; simpa [allNodes] using lit_shift l p t h
  | .macro _ l, p, t, h => by simp [shift, allNodes] at h; simpa [allNodes] using lit_shift l p t h
  | .arg _ l _, p, t, h => by simp [shift, allNodes] at h; simpa [allNodes] using lit_shift l p t h
  | .optArg _ l _, p, t, h => by simp [shift, allNodes] at h; simpa [allNodes] using lit_shift l p t h
  | .ident _ _, p, t, h => by simp [shift, allNodes] at h
  | .math _ _ l _, p, t, h => by simp [shift, allNodes] at h; simpa [allNodes] using lit_shift l p t h
  | .word _ _, p, t, h => by simp [shift, allNodes] at h
  | .lit q _, p, t, h => by simp [shift, allNodes] at h; exact ⟨q, by simp [allNodes, h.2]⟩
  | .sym _ _, p, t, h => by simp [shift, allNodes] at h
  | .sub _ n, p, t, h => by simp [shift, allNodes] at h; simpa [allNodes] using lit_shift1 n p t h
  | .sup _ n, p, t, h => by simp [shift, allNodes] at h; simpa [allNodes] using lit_shift1 n p t h
theorem lit_shift {d : Nat} : ∀ (l : List Node) (p : Nat) (t : GoString), .lit p t ∈ allNodesL (shiftL d l) → ∃ p', .lit p' t ∈ allNodesL l
  | [], p, t, h => by simp [shiftL, allNodesL] at h
  | n :: l, p, t, h => by
    simp only [shiftL, allNodesL, List.mem_append] at h
    rcases h with h | h
    · obtain ⟨p', h⟩ := lit_shift1 n p t h; exact ⟨p', by simp [allNodesL, h]⟩
    · obtain ⟨p', h⟩ := lit_shift l p t h; exact ⟨p', by simp [allNodesL, h]⟩
end

theorem walkAll_append (be : Backend F) (num : GoString → Option F) (x : GoString) (st : TState F) (math : Bool) (l k : List Node) :
    walkAll be num x st math (l ++ k) = walkAll be num x st math l >>= fun p => walkAll be num x st math k >>= fun q => .ok (p ++ q) := by
  induction l with
  | nil =>
    rw [List.nil_append, walkAll]
    cases walkAll be num x st math k <;> rfl
  | cons n l ih =>
    rw [List.cons_append, walkAll, ih, walkAll]
    cases walkN be num x st math n with
    | ok a =>
      cases walkAll be num x st math l with
      | ok b => cases walkAll be num x st math k <;> simp
      | panic => rfl
      | fuel => rfl
    | panic => rfl
    | fuel => rfl

theorem slice_one {x : GoString} {p : Nat} {b : Nat} (h : slice x p (p + 1) = [b]) : ∃ c, x.drop p = b :: c := by
  simp only [slice] at h
  rw [show p + 1 - p = 1 by omega] at h
  cases hd : x.drop p with
  | nil => rw [hd] at h; cases h
  | cons a c => rw [hd] at h; cases h; exact ⟨c, rfl⟩

theorem plainDots_lines {a b : GoString} (ha : PlainDots a) (hb : PlainDots b) : (ch!"." ∈ a → (FirstDotDecimal (a ++ bs!"\n" ++ b) ↔ FirstDotDecimal a)) ∧
    (ch!"." ∈ b → (FirstDotDecimal (a ++ bs!"\n" ++ b) ↔ FirstDotDecimal b)) := by
  have h1 : FirstDotDecimal a → FirstDotDecimal (a ++ bs!"\n" ++ b) := by
    rintro ⟨u, d, e, v, rfl, h⟩
    exact ⟨u, d, e, v ++ bs!"\n" ++ b, by simp, h⟩
  refine ⟨fun h => ⟨fun _ => ha.resolve_left (fun h' => h' h), h1⟩, fun h => ⟨fun _ => hb.resolve_left fun h' => h' h, fun hf => ?_⟩⟩
  rcases ha with ha | ha
  · refine (dot_prefix (by simp [ha]) fun u v huv => ?_).2 hf
    obtain ⟨-, h⟩ := List.append_inj' huv rfl
    cases h
    omega
  · exact h1 ha

/-- **C91** Two sources, the first of them complete, on lines of their own and with no full stop, or with a first full stop between digits
in each: the boxes of the two together are those of the first and then those of the second. -/
theorem C91_lines (U : Nat → Bool) (be : Backend F) (num : GoString → Option F) (st : TState F) (a b : GoString) (la lb : List Node)
    (ha : Complete U a la) (hb : parseExpr U b = .ok (.list lb)) (hbom : ¬ bom <+: b) (hda : PlainDots a) (hdb : PlainDots b) :
    ∃ t, parseExpr U (a ++ bs!"\n" ++ b) = .ok t ∧ collect be num (a ++ bs!"\n" ++ b) st false t =
      collect be num a st false (.list la) >>= fun p => collect be num b st false (.list lb) >>= fun q => .ok (p ++ q) := by
  have hab := (C89_lines a b la ha hbom _).2 ⟨lb, hb, rfl⟩
  refine ⟨_, hab, ?_⟩
  have hdots := plainDots_lines hda hdb
  -- the first
  have h5 := C05_source_order U _ _ ha
  have hpos : ∀ q ∈ leavesL la, q.2 ≠ [] ∧ q.1 ≤ a.length := by
    intro q hq
    have h1 : (leaves (.list (la ++ [.word (a.length + 1) bs!"x"]))) = leavesL la ++ [(a.length + 1, bs!"x")] := by
      simp only [leaves, leavesL_append, leavesL, List.append_nil]
    rw [h1] at h5
    have h2 := (List.pairwise_append.1 h5.1).2.2 q hq (a.length + 1, bs!"x") (by simp)
    have h3 := (h5.2 q (by simp [hq])).1
    have := List.length_pos_iff.2 h3
    simp only at h2
    exact ⟨h3, by omega⟩
  have hA : AlikeL (a ++ bs!"\n" ++ b) a la la := by
    have hloc : ∀ k ∈ allNodesL la, Local (a ++ bs!"\nx") k := fun k hk =>
      parse_local ha k (by simp [allNodes, allNodesL_append, hk])
    have hlt : ∀ p c r, p ≤ a.length → (a ++ bs!"\n" ++ r).drop p = ch!"." :: c → ∃ c', a.drop p = ch!"." :: c' := by
      intro p c r hp h
      rcases Nat.lt_or_ge p a.length with hlt | hge
      · rw [List.append_assoc, List.drop_append_of_le_length hp] at h
        cases hd : a.drop p with
        | nil => simp at hd; omega
        | cons u v => rw [hd] at h; cases h; exact ⟨v, rfl⟩
      · have : p = a.length := by omega
        subst this
        rw [List.append_assoc, List.drop_left] at h
        cases h
    have hsym : ∀ k ∈ allNodesL la, ∀ p, (k = .sym p bs!"." ∨ ∃ args, k = .macro (some (p, bs!".")) args) → ∃ c, a.drop p = ch!"." :: c := by
      intro k hk p hp
      have hl := hloc k hk
      rcases hp with rfl | ⟨args, rfl⟩
      · obtain ⟨c, hc⟩ := slice_one hl
        exact hlt p c bs!"x" (hpos (p, bs!".") (sym_leaf p _ la hk)).2 (by simpa using hc)
      · obtain ⟨⟨w, rest, y, -, h1, -⟩, -⟩ := hl
        cases h1
    refine alikeL_of la la rfl (List.forall₂_same.2 fun q hq => ?_) (fun p t hk hd => ?_) (fun k hk p hp => ?_) (fun k hk p hp => ?_)
    · unfold tightB
      rw [List.append_assoc, List.take_append_of_le_length (hpos q hq).2]
    · refine bool_of_iff ?_
      rw [dotInNumber_iff, dotInNumber_iff]
      refine hdots.1 ?_
      have hl := hloc _ hk
      simp only [Local, slice, Nat.add_sub_cancel_left] at hl
      rw [← hl] at hd
      have := List.mem_of_mem_drop (List.mem_of_mem_take hd)
      simpa using this
    · obtain ⟨c, hc⟩ := hsym k hk p hp
      obtain ⟨-, h2⟩ : True ∧ p ≤ a.length := ⟨trivial, by
        by_contra h
        rw [List.drop_eq_nil_of_le (by omega)] at hc
        cases hc⟩
      rw [List.append_assoc, List.drop_append_of_le_length h2, hc]
      simp [indexDot, dotInNumber]
    · obtain ⟨c, hc⟩ := hsym k hk p hp
      rw [hc]
      simp [indexDot, dotInNumber]
  -- the second
  have hB : AlikeL (a ++ bs!"\n" ++ b) b (shiftL (a.length + 1) lb) lb := by
    refine alikeL_of _ _ (bareL_shift _ lb) ?_ (fun p t hk hd => ?_) ((dotsApart_parse hab).mono fun k hk => ?_) ((dotsApart_parse hb).mono fun k hk => ?_)
    · rw [leavesL_shift]
      generalize leavesL lb = l
      induction l with
      | nil => exact .nil
      | cons q l ih =>
        refine .cons (bool_of_iff ?_) ih
        unfold tightB
        rw [tight_iff, tight_iff]
        have hw : (a ++ bs!"\n").length = a.length + 1 := by simp
        rw [← hw]
        refine tight_prefix (fun u v huv => ?_) q.1 q.2
        obtain ⟨-, h⟩ := List.append_inj' huv rfl
        cases h
        simp
    · refine bool_of_iff ?_
      rw [dotInNumber_iff, dotInNumber_iff]
      refine hdots.2 ?_
      obtain ⟨p', hk'⟩ := lit_shift lb p t hk
      have hl := parse_local hb (.lit p' t) (by simp [allNodes, hk'])
      simp only [Local, slice, Nat.add_sub_cancel_left] at hl
      rw [← hl] at hd
      exact List.mem_of_mem_drop (List.mem_of_mem_take hd)
    · simp [allNodes, allNodesL_append, hk]
    · simp [allNodes, hk]
  have e1 := collect_alike be num st false (.list hA)
  have e2 := collect_alike be num st false (.list hB)
  rw [collect_eq, collect_eq, walkN, walkN] at e1 e2
  rw [collect_eq, collect_eq, collect_eq, walkN, walkN, walkN, walkAll_append, e1, e2]

/-- **C91** Finding: a full stop in a comment changes how the numbers after it are set. -/
theorem C91_comment_dot : (exNodes bs!"3.14").map exKind = [0, 0, 0, 0] ∧ (exNodes bs!"% see p. 7\n3.14").map exKind = [0, 1, 0, 0] := by
  decide +kernel

/-- **C91** Finding: a line break or a comment between an opening parenthesis and a binary operator makes a difference. -/
theorem C91_break_inside : (exNodes bs!"$(+a)$").map exKind = [0, 0, 1, 0] ∧ (exNodes bs!"$(\n+a)$").map exKind = [0, 1, 1, 0] ∧
    (exNodes bs!"$(%\n+a)$").map exKind = [0, 1, 1, 0] ∧ (exNodes bs!"$( +a)$").map exKind = [0, 0, 1, 0] := by
  decide +kernel

/-! ## Blanks in formulas -/

theorem forall2_join {α β γ : Type} {R : α → β → Prop} {S : γ → β → Prop} {T : α → γ → Prop} (h : ∀ a b c, R a b → S c b → T a c)
    {l : List α} {k : List β} {m : List γ} (h1 : List.Forall₂ R l k) (h2 : List.Forall₂ S m k) : List.Forall₂ T l m := by
  induction h1 generalizing m with
  | nil => cases h2; exact .nil
  | cons hr _ ih => cases h2 with
    | cons hs h2 => exact .cons (h _ _ _ hr hs) (ih h2)

theorem tight_prev {x y : GoString} {p q : Nat} (t : GoString) (h : prevChar (x.take p) = prevChar (y.take q)) : Tight x p t ↔ Tight y q t := by
  rw [← tight_iff, ← tight_iff, h]

/-- **C91** Blanks in formulas do not matter: two documents of the supported language that are the same but for such blanks are drawn
in the same way. -/
theorem C91_blanks (U : Nat → Bool) (e : TtfEnv H) (num : GoString → Option F) (d d' : List Item) (h : OkL U .top false d [])
    (h' : OkL U .top false d' []) (hb : ¬ bom <+: srcL d) (hb' : ¬ bom <+: srcL d') (hs : tidyL false d = tidyL false d') (size dpi : F) :
    renderT U e num (srcL d) size dpi = renderT U e num (srcL d') size dpi := by
  refine C91_render U e num _ _ _ _ (C10_documents U d h hb) (C10_documents U d' h' hb') ?_ size dpi
  have k1 := (tidyL_kept false d [] [] [] [] rfl).2
  have k2 := (tidyL_kept false d' [] [] [] [] rfl).2
  rw [← hs] at k2
  simp only [List.nil_append, List.append_nil, List.length_nil] at k1 k2
  refine ⟨?_, ?_, fun _ => ?_⟩
  · simp only [bare, k1.bare, k2.bare]
  · simp only [leaves]
    refine forall2_join (fun a b c hr hs => ?_) k1.leaves k2.leaves
    rw [hr.2, hs.2]
    exact tight_prev _ (hr.1.trans hs.1.symm)
  · rw [fd_doc d h, fd_doc d' h', ← fdL_tidy false d, hs, fdL_tidy]

/-- **C91** The blank is ignored after an opening bracket, a backslash with a blank is not. -/
theorem C91_blank_inside : (exNodes bs!"$( + a )$").map exKind = (exNodes bs!"$(+a)$").map exKind ∧
    (exNodes bs!"$(\\ +a)$").map exKind ≠ (exNodes bs!"$(+a)$").map exKind := by
  decide +kernel

/-! ## Concrete cases -/

/-- `$\frac{ x }{ 2.5 } - ( + b )$` for `b` a blank, and the same without blanks -/
def exBlanks (b : List Item) : List Item := [.math ([.macro bs!"\\frac" [.arg (b ++ [.word bs!"x"] ++ b), .arg (b ++ [.num bs!"2" (some bs!"5")] ++ b)]] ++ b ++
  [.sym ch!"-"] ++ b ++ [.sym ch!"("] ++ b ++ [.sym ch!"+"] ++ b ++ [.word bs!"b"] ++ b ++ [.sym ch!")"])]

theorem exBlanks_ok (U : Nat → Bool) (b : List Item) (hb : b = [] ∨ b = [.blank]) : OkL U .top false (exBlanks b) [] := by
  have w : ∀ {t : GoString}, t ≠ [] → (∀ b ∈ t, b < 128 ∧ ((65 ≤ b && b ≤ 90) || (97 ≤ b && b ≤ 122)) = true) → WordText U t := wordText_ascii U
  rcases hb with rfl | rfl <;>
    simp only [exBlanks, OkL, Ok, srcL, src, numText, OkArgs, List.cons_append, List.nil_append, List.append_nil, and_true, true_and]
  · exact ⟨by decide, ⟨bs!"AA", by krfl, .arg (.arg .nil), ⟨⟨w (by decide) (by decide), next_cons (by decide)⟩, by decide, by unfold Digits; decide,
      by unfold Digits; decide, next_cons (by decide)⟩, .inl ⟨_, rfl, w (by decide) (by decide), by simp⟩⟩, ⟨by decide, by simp, by simp⟩,
      ⟨by decide, by simp, by simp⟩, ⟨by decide, by simp, by simp⟩, ⟨w (by decide) (by decide), next_cons (by decide)⟩, by decide, by simp, by simp⟩
  · exact ⟨by decide, ⟨bs!"AA", by krfl, .arg (.arg .nil), ⟨⟨w (by decide) (by decide), next_cons (by decide)⟩, by decide, by unfold Digits; decide,
      by unfold Digits; decide, next_cons (by decide)⟩, .inl ⟨_, rfl, w (by decide) (by decide), by simp⟩⟩, ⟨by decide, by simp, by simp⟩,
      ⟨by decide, by simp, by simp⟩, ⟨by decide, by simp, by simp⟩, ⟨w (by decide) (by decide), next_cons (by decide)⟩, by decide, by simp, by simp⟩

/-- The hypotheses of `C91_blanks` hold for these two, and something is drawn. -/
example : srcL (exBlanks [.blank]) = bs!"$\\frac{ x }{ 2.5 } - ( + b )$" ∧ srcL (exBlanks []) = bs!"$\\frac{x}{2.5}-(+b)$" ∧
    tidyL false (exBlanks [.blank]) = tidyL false (exBlanks []) ∧ ¬ bom <+: srcL (exBlanks []) ∧ (exNodes (srcL (exBlanks []))).length = 6 :=
  ⟨by decide, by decide, by simp [tidyL, tidy, exBlanks], by decide, by decide +kernel⟩

/-- The hypotheses of `C91_lines` hold for `$x$` and `2.5 kg`. -/
example (U : Nat → Bool) : Complete U bs!"$x$" [.math bs!"$" 0 [.word 1 bs!"x"] 2] ∧
    parseExpr U bs!"2.5 kg" = .ok (.list [.lit 0 bs!"2.5", .sym 3 bs!" ", .word 4 bs!"kg"]) ∧ ¬ bom <+: bs!"2.5 kg" ∧
    PlainDots bs!"$x$" ∧ PlainDots bs!"2.5 kg" :=
  ⟨by unfold Complete; krfl, by krfl, by decide, .inl (by decide), .inr ⟨[], 50, 53, bs!" kg", by decide, by decide, by decide, by decide, by decide, by decide⟩⟩

end Verif.Props
