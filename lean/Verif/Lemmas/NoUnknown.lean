import Verif.Lemmas.Drawable
import Verif.Spec.Tree
/-! # The visitor never meets an unknown macro -/

namespace Verif
variable {F : Type} [GoFloat F]
open GoFloat Spec

/-- Not the panic of mtex/parser.go:121. -/
structure NoUnk {α : Type} (r : Res α) : Prop where
  ne : r ≠ .panic (.other "unknown macro")

theorem noUnk_ok {α : Type} (a : α) : NoUnk (.ok a) := ⟨by intro h; cases h⟩
theorem noUnk_panic {α : Type} {s : String} (h : s ≠ "unknown macro") : NoUnk (.panic (.other s) : Res α) := by
  refine ⟨fun e => ?_⟩; cases e; exact h rfl
theorem noUnk_bind {α β : Type} {r : Res α} {f : α → Res β} (h : NoUnk r) (hf : ∀ a, NoUnk (f a)) : NoUnk (r >>= f) := by
  cases r with
  | ok a => exact hf a
  | panic p => exact ⟨fun e => h.ne (by cases e; rfl)⟩
  | fuel => exact ⟨fun e => by cases e⟩

section
variable {be : Backend F} {num : GoString → Option F} {x : GoString}

theorem newChar_noUnk (c : GoString) (st : TState F) (m : Bool) : NoUnk (newChar be c st m) := by
  unfold newChar; split
  · exact noUnk_ok _
  · exact noUnk_panic (by decide)

theorem makeSpace_noUnk (st : TState F) (w : F) : NoUnk (makeSpace be st w) := by
  unfold makeSpace; dsimp only; split
  · exact noUnk_ok _
  · exact noUnk_panic (by decide)

theorem handleSymbol_noUnk (pos : Nat) (t : GoString) (st : TState F) (m : Bool) :
    NoUnk (handleSymbol be x pos t st m) := by
  unfold handleSymbol
  refine noUnk_bind (newChar_noUnk ..) fun ch => ?_
  dsimp only
  repeat' split
  all_goals first
    | exact noUnk_ok _
    | exact noUnk_panic (by decide)
    | exact noUnk_bind (makeSpace_noUnk ..) fun _ => noUnk_ok _
    | exact noUnk_bind (makeSpace_noUnk ..) fun _ => noUnk_bind (makeSpace_noUnk ..) fun _ => noUnk_ok _

theorem handleSpace_noUnk (name : GoString) (st : TState F) : NoUnk (handleSpace be name st) := by
  unfold handleSpace; split
  · exact makeSpace_noUnk ..
  · exact noUnk_panic (by decide)

theorem newChars_noUnk (st : TState F) (m : Bool) (l : List Ch) : NoUnk (newChars be st m l) := by
  induction l with
  | nil => exact noUnk_ok _
  | cons c l ih => exact noUnk_bind (newChar_noUnk ..) fun _ => noUnk_bind ih fun _ => noUnk_ok _

theorem literalChars_noUnk (st : TState F) (m : Bool) (l : List Ch) : NoUnk (literalChars be x st m l) := by
  induction l with
  | nil => exact noUnk_ok _
  | cons c l ih => exact noUnk_bind (handleSymbol_noUnk ..) fun _ => noUnk_bind ih fun _ => noUnk_ok _

theorem handleFunction_noUnk (name : GoString) (st : TState F) (m : Bool) : NoUnk (handleFunction be name st m) :=
  noUnk_bind (newChars_noUnk ..) fun _ => noUnk_ok _

theorem vpack_noUnk (hd : LHead F) (cs : List (TNode F)) (h : F) (a : Bool) (l : F) : NoUnk (vpack hd cs h a l) := by
  unfold vpack
  refine noUnk_bind ?_ fun _ => noUnk_ok _
  generalize (Dims.zero : Dims F) = p
  induction cs generalizing p with
  | nil => exact noUnk_ok _
  | cons n cs ih =>
    refine noUnk_bind ?_ fun p => ih p
    unfold vpackDims
    split <;> first | exact noUnk_ok _ | exact noUnk_panic (by decide)

theorem autoHeightChar_noUnk (c : GoString) (h d : F) (st : TState F) (k : F) : NoUnk (autoHeightChar be c h d st k) := by
  unfold autoHeightChar
  split
  · exact noUnk_panic (by decide)
  unfold autoHeightBody
  refine noUnk_bind (newChar_noUnk ..) fun ch => ?_
  dsimp only
  split
  · exact noUnk_bind (newChar_noUnk ..) fun _ => noUnk_ok _
  · exact noUnk_ok _

theorem ruled_noUnk (st : TState F) (body : TNode F) (h d : F) : NoUnk (ruled be st body h d) :=
  noUnk_bind (noUnk_ok (⟨0, zero, ofInt 1, 2, zero, 0⟩ : GlueD F)) fun _ => noUnk_bind (vpack_noUnk ..) fun _ =>
    noUnk_bind (vpack_noUnk ..) fun _ => noUnk_ok _

theorem genfrac_noUnk (delims : Bool) (rule : F) (display : Bool) (a b : TNode F) (st : TState F) :
    NoUnk (genfrac be delims rule display a b st) := by
  unfold genfrac
  refine noUnk_bind (vpack_noUnk ..) fun hd => ?_
  dsimp only
  split
  · split
    · exact noUnk_bind (autoHeightChar_noUnk ..) fun _ => noUnk_bind (autoHeightChar_noUnk ..) fun _ => noUnk_ok _
    · exact noUnk_ok _
  · exact noUnk_panic (by decide)

theorem buildSqrt_noUnk (root : Option (TNode F)) (hd : LHead F) (cs : List (TNode F)) (st : TState F) :
    NoUnk (buildSqrt be root hd cs st) :=
  noUnk_bind (autoHeightChar_noUnk ..) fun _ => noUnk_bind (ruled_noUnk ..) fun _ => noUnk_bind (vpack_noUnk ..) fun _ =>
    noUnk_ok _

theorem buildOverline_noUnk (hd : LHead F) (cs : List (TNode F)) (st : TState F) : NoUnk (buildOverline be hd cs st) :=
  noUnk_bind (ruled_noUnk ..) fun _ => noUnk_ok _

theorem build_noUnk (st : TState F) (math : Bool) (k : Hk) (pos : Nat) (name : GoString) (args : List Node)
    (rs : List (Res (List (TNode F)))) (h : ∀ r ∈ rs, NoUnk r) : NoUnk (build be num x st math k pos name args rs) := by
  cases k <;> unfold build <;> dsimp only
  case space => exact handleSpace_noUnk ..
  case symbol => exact handleSymbol_noUnk ..
  case function => exact handleFunction_noUnk ..
  case hspace =>
    repeat' split
    all_goals first | exact makeSpace_noUnk .. | exact noUnk_panic (by decide)
  case overline =>
    split
    · exact noUnk_bind (h _ (by simp)) fun _ => buildOverline_noUnk ..
    · exact noUnk_panic (by decide)
  case sqrt =>
    split
    · exact noUnk_bind (h _ (by simp)) fun _ => noUnk_bind (h _ (by simp)) fun _ => buildSqrt_noUnk ..
    · exact noUnk_bind (h _ (by simp)) fun _ => buildSqrt_noUnk ..
    · exact noUnk_panic (by decide)
  all_goals
    split
    · exact noUnk_bind (h _ (by simp)) fun _ => noUnk_bind (h _ (by simp)) fun _ => genfrac_noUnk ..
    · exact noUnk_panic (by decide)

/-- Every macro of the tree has a handler. -/
def Handled (n : Node) : Prop := ∀ p name args, Node.macro (some (p, name)) args ∈ allNodes n → handlerOf name ≠ none
/-- Every macro of the trees has a handler. -/
def HandledL (l : List Node) : Prop := ∀ p name args, Node.macro (some (p, name)) args ∈ allNodesL l → handlerOf name ≠ none

theorem HandledL.head {n : Node} {l : List Node} (h : HandledL (n :: l)) : Handled n :=
  fun p name args hm => h p name args (List.mem_append_left _ hm)
theorem HandledL.tail {n : Node} {l : List Node} (h : HandledL (n :: l)) : HandledL l :=
  fun p name args hm => h p name args (List.mem_append_right _ hm)

theorem buildSym_noUnk (st : TState F) (math : Bool) (p : Nat) (t : GoString) (k : Option Hk) :
    NoUnk (buildSym be x st math p t k) := by
  unfold buildSym
  split <;> first
    | exact handleSpace_noUnk ..
    | exact handleSymbol_noUnk ..
    | exact noUnk_panic (by decide)

theorem sym_noUnk (p : Nat) (t : GoString) (st : TState F) (math : Bool) :
    NoUnk (visitN be num x st math (.sym p t)) := by
  simp only [visitN]
  split
  · exact noUnk_bind (buildSym_noUnk ..) fun _ => noUnk_ok _
  · exact noUnk_bind (newChar_noUnk ..) fun _ => noUnk_ok _

mutual
theorem visit_noUnk : ∀ (n : Node) (st : TState F) (math : Bool), Handled n → NoUnk (visitN be num x st math n)
  | .list _, _, _, _ => by simp only [visitN]; exact noUnk_ok _
  | .nil, _, _, _ => by simp only [visitN]; exact noUnk_ok _
  | .sym p t, st, math, _ => sym_noUnk p t st math
  | .word _ _, _, _, _ => by simp only [visitN]; exact noUnk_bind (newChars_noUnk ..) fun _ => noUnk_ok _
  | .lit _ _, _, _, _ => by simp only [visitN]; exact literalChars_noUnk ..
  | .math _ _ l _, st, _, h => by
    simp only [visitN]
    exact visitAll_noUnk l _ true fun p name args hm => h p name args (List.mem_cons_of_mem _ hm)
  | .macro none _, _, _, _ => by simp only [visitN]; exact noUnk_panic (by decide)
  | .macro (some (p, name)) args, st, math, h => by
    simp only [visitN]
    have h0 := h p name args (List.mem_cons_self)
    cases hk : handlerOf name with
    | none => exact absurd hk h0
    | some k =>
      exact noUnk_bind (build_noUnk _ _ _ _ _ _ _ (walkArgs_noUnk args st math
        fun p name args' hm => h p name args' (List.mem_cons_of_mem _ hm))) fun _ => noUnk_ok _
  | .arg .., _, _, _ => by simp only [visitN]; exact noUnk_panic (by decide)
  | .optArg .., _, _, _ => by simp only [visitN]; exact noUnk_panic (by decide)
  | .ident .., _, _, _ => by simp only [visitN]; exact noUnk_panic (by decide)
  | .sub .., _, _, _ => by simp only [visitN]; exact noUnk_panic (by decide)
  | .sup .., _, _, _ => by simp only [visitN]; exact noUnk_panic (by decide)
theorem visitAll_noUnk : ∀ (l : List Node) (st : TState F) (math : Bool), HandledL l → NoUnk (visitAll be num x st math l)
  | [], _, _, _ => by simp only [visitAll]; exact noUnk_ok _
  | n :: l, st, math, h => by
    simp only [visitAll]
    exact noUnk_bind (visit_noUnk n st math h.head) fun _ => noUnk_bind (visitAll_noUnk l st math h.tail) fun _ => noUnk_ok _
theorem walk_noUnk : ∀ (n : Node) (st : TState F) (math : Bool), Handled n → NoUnk (walkN be num x st math n)
  | .list l, st, math, h => by
    simp only [walkN]
    exact walkAll_noUnk l st math fun p name args hm => h p name args (List.mem_cons_of_mem _ hm)
  | .nil, _, _, _ => by simp only [walkN]; exact noUnk_panic (by decide)
  | .sym p t, st, math, _ => by rw [walkN]; exact sym_noUnk p t st math
  | .word _ _, _, _, _ => by simp only [walkN, visitN]; exact noUnk_bind (newChars_noUnk ..) fun _ => noUnk_ok _
  | .lit _ _, _, _, _ => by simp only [walkN, visitN]; exact literalChars_noUnk ..
  | .math _ _ l _, st, _, h => by
    simp only [walkN]
    exact visitAll_noUnk l _ true fun p name args hm => h p name args (List.mem_cons_of_mem _ hm)
  | .macro none _, _, _, _ => by simp only [walkN, visitN]; exact noUnk_panic (by decide)
  | .macro (some (p, name)) args, st, math, h => by
    simp only [walkN, visitN]
    have h0 := h p name args (List.mem_cons_self)
    cases hk : handlerOf name with
    | none => exact absurd hk h0
    | some k =>
      exact noUnk_bind (build_noUnk _ _ _ _ _ _ _ (walkArgs_noUnk args st math
        fun p name args' hm => h p name args' (List.mem_cons_of_mem _ hm))) fun _ => noUnk_ok _
  | .arg .., _, _, _ => by simp only [walkN]; exact noUnk_panic (by decide)
  | .optArg .., _, _, _ => by simp only [walkN]; exact noUnk_panic (by decide)
  | .ident .., _, _, _ => by simp only [walkN]; exact noUnk_panic (by decide)
  | .sub .., _, _, _ => by simp only [walkN]; exact noUnk_panic (by decide)
  | .sup .., _, _, _ => by simp only [walkN]; exact noUnk_panic (by decide)
theorem walkAll_noUnk : ∀ (l : List Node) (st : TState F) (math : Bool), HandledL l → NoUnk (walkAll be num x st math l)
  | [], _, _, _ => by simp only [walkAll]; exact noUnk_ok _
  | n :: l, st, math, h => by
    simp only [walkAll]
    exact noUnk_bind (walk_noUnk n st math h.head) fun _ => noUnk_bind (walkAll_noUnk l st math h.tail) fun _ => noUnk_ok _
theorem walkArgs_noUnk : ∀ (l : List Node) (st : TState F) (math : Bool), HandledL l →
    ∀ r ∈ walkArgs be num x st math l, NoUnk r
  | [], st, math, _ => by simp [walkArgs]
  | n :: as, st, math, h => by
    intro r hr
    simp only [walkArgs, List.mem_cons] at hr
    rcases hr with rfl | hr
    · exact walkArg_noUnk n st math h.head
    · exact walkArgs_noUnk as st math h.tail r hr
theorem walkArg_noUnk : ∀ (n : Node) (st : TState F) (math : Bool), Handled n → NoUnk (walkArg be num x st math n)
  | .arg _ l _, st, math, h => by
    simp only [walkArg]
    exact walkAll_noUnk l st math fun p name args hm => h p name args (List.mem_cons_of_mem _ hm)
  | .optArg _ l _, st, math, h => by
    simp only [walkArg]
    exact walkAll_noUnk l st math fun p name args hm => h p name args (List.mem_cons_of_mem _ hm)
  | .nil, _, _, _ | .list _, _, _, _ | .macro _ _, _, _, _ | .ident _ _, _, _, _ | .math _ _ _ _, _, _, _
  | .word _ _, _, _, _ | .lit _ _, _, _, _ | .sym _ _, _, _, _ | .sub _ _, _, _, _ | .sup _ _, _, _, _ => by
    simp only [walkArg]; exact noUnk_panic (by decide)
end

end

/-! ## The tables -/

/-- A table entry has a handler. -/
theorem handled_latex : ∀ k ∈ latexMacros.map Prod.fst, handlerOf k ≠ none := by decide +kernel

theorem handled_tex2uni {k : GoString} (h : k ∈ tex2uni.map Prod.fst) : handlerOf (ch!"\\" :: k) ≠ none := by
  have hm : hasMacro (ch!"\\" :: k) = true := by
    rw [hasMacro_eq]
    simp [h]
  unfold handlerOf
  simp only [hm, if_true]
  repeat' split
  all_goals simp

theorem key_of_lookup {β : Type} {l : List (GoString × β)} {k : GoString} (h : (l.lookup k).isSome = true) :
    k ∈ l.map Prod.fst := by
  rw [lookup_contains] at h
  simpa using h

/-- Every macro known to `ParseExpr` is handled. -/
theorem handled_of_macroLookup {name : GoString} {e : Option GoString} (h : macroLookup name = some e) :
    handlerOf name ≠ none := by
  unfold macroLookup at h
  split at h
  · rename_i he
    exact handled_latex name (key_of_lookup (by rw [he]; rfl))
  · split at h
    · split at h
      · rename_i hc
        obtain ⟨rfl, hk⟩ := hc
        exact handled_tex2uni (key_of_lookup hk)
      · cases h
    · cases h

/-! ## The panics of `ParseExpr` -/

section
variable {U : Nat → Bool}

theorem noUnk_site {α : Type} {p : Panic} (h : ∀ s, p ≠ .other s) : NoUnk (.panic p : Res α) :=
  ⟨fun e => by cases e; exact h _ rfl⟩

theorem scanCommentN_noUnk (n : Nat) : ∀ (s : SS) (acc : GoString), NoUnk (scanCommentN U n s acc) := by
  induction n with
  | zero => intro s acc; exact ⟨fun e => by cases e⟩
  | succ n ih =>
    intro s acc
    rw [scanCommentN]
    dsimp only
    split
    · exact ih ..
    · split
      · exact noUnk_ok _
      · exact ih ..

theorem scan_noUnk (s : SS) : NoUnk (scan U s) := by
  unfold scan
  dsimp only
  have hh := scanCommentN_noUnk (U := U) ((rawScan U isWs s).2.rest.length + 1) (rawScan U isWs s).2 bs!"%"
  repeat' split
  all_goals first
    | exact noUnk_ok _
    | (rename_i h; rw [h] at hh; exact ⟨fun e => hh.ne (by cases e; rfl)⟩)
    | exact noUnk_site (by intro s h; cases h)
    | exact ⟨fun e => by cases e⟩

theorem expect_noUnk (v : Nat) (s : SS) : NoUnk (expect U v s) := by
  refine noUnk_bind (scan_noUnk s) fun r => ?_
  split
  · exact noUnk_ok _
  · exact noUnk_site (by intro s h; cases h)

theorem parseArgs_noUnk {loop : Loop} (h : ∀ m stop s, NoUnk (loop m stop s)) (m : Mode) (sig : GoString) :
    ∀ s, NoUnk (parseArgs U loop m sig s) := by
  induction sig with
  | nil => intro s; exact noUnk_ok _
  | cons c sig ih =>
    intro s
    rw [parseArgs]
    split
    · exact noUnk_bind (noUnk_bind (expect_noUnk ..) fun _ => noUnk_bind (h ..) fun _ => noUnk_ok _) fun _ =>
        noUnk_bind (ih _) fun _ => noUnk_ok _
    · split
      · refine noUnk_bind ?_ fun _ => noUnk_bind (ih _) fun _ => noUnk_ok _
        unfold parseOptMacroArg
        split
        · exact noUnk_ok _
        · exact noUnk_bind (expect_noUnk ..) fun _ => noUnk_bind (h ..) fun _ => noUnk_ok _
      · exact ih s

theorem parse_noUnk (n : Nat) : (∀ m t s, NoUnk (parseNode U n m t s)) ∧ (∀ m stop s, NoUnk (parseLoop U n m stop s)) := by
  induction n with
  | zero => exact ⟨fun m t s => ⟨fun e => by simp [parseNode] at e⟩, fun m stop s => ⟨fun e => by simp [parseLoop] at e⟩⟩
  | succ n ih =>
    obtain ⟨ih1, ih2⟩ := ih
    refine ⟨fun m t s => ?_, fun m stop s => ?_⟩
    · unfold parseNode
      repeat' split
      all_goals first
        | exact noUnk_ok _
        | exact noUnk_site (by intro s h; cases h)
        | exact noUnk_bind (parseArgs_noUnk ih2 ..) fun _ => noUnk_ok _
        | exact noUnk_bind (ih2 ..) fun _ => noUnk_ok _
        | exact noUnk_bind (expect_noUnk ..) fun _ => noUnk_bind (ih2 ..) fun _ => noUnk_ok _
        | exact noUnk_bind (scan_noUnk ..) fun _ => noUnk_bind (ih1 ..) fun _ => noUnk_ok _
    · rw [parseLoop]
      refine noUnk_bind (scan_noUnk s) fun r => ?_
      split
      · exact noUnk_ok _
      · split
        · exact noUnk_ok _
        · exact noUnk_bind (ih1 ..) fun _ => noUnk_bind (ih2 ..) fun _ => noUnk_ok _

theorem parseExpr_noUnk (x : GoString) : NoUnk (parseExpr U x) :=
  noUnk_bind ((parse_noUnk _).2 ..) fun _ => noUnk_ok _

end

end Verif
