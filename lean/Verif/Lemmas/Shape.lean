import Verif.Lemmas.Tree
import Verif.Spec.Parse
/-! # Shape of parse results -/

namespace Verif
open Spec

/-- `math` flag of a mode -/
def Mode.isMath : Mode → Bool
  | .math => true
  | .normal => false

theorem shape_operand {U x m n} (h : Shape U x m n) : Operand U x m n := by
  match n, h with
  | .list l, h => simp only [Shape] at h; simp only [Operand]; exact h.2
  | .nil, h => exact h
  | .macro none _, h => exact h
  | .macro (some _) _, h => exact h
  | .arg _ _ _, h => exact h
  | .optArg _ _ _, h => exact h
  | .ident _ _, h => exact h
  | .math _ _ _ _, h => exact h
  | .word _ _, h => exact h
  | .lit _ _, h => exact h
  | .sym _ _, h => exact h
  | .sub _ _, h => exact h
  | .sup _ _, h => exact h

theorem isBreak_eq (b : Nat) : isBreak b = isWs b := rfl

/-- Bytes after line breaks, at the start of a token. -/
theorem afterBreaks_scan {U x s t s' w body} (h : Src x s) (hs : ScanSpec U s t s' w body)
    {c : Ch} {mid : List Ch} (hb : body = c :: mid) (hc : isWs c.r = false) (hlt : c.r < 128) :
    afterBreaks x s.off = c.r :: bytesOf (mid ++ s'.rest) := by
  have hwf := h.wf
  unfold afterBreaks
  rw [h.drop, hs.rest, hb]
  have hr := hs.rest
  rw [hb] at hr
  have hcw : c.WF := hwf c (by rw [hr]; simp)
  have hcb := hcw.2 hlt
  have key : ∀ w : List Ch, (∀ d ∈ w, d.WF) → (∀ d ∈ w, isWs d.r = true) → ∀ y : List Nat,
      (bytesOf w ++ y).dropWhile isBreak = y.dropWhile isBreak := by
    intro w
    induction w with
    | nil => intros; rfl
    | cons d w ih =>
      intro h1 h2 y
      have hd : isWs d.r = true := h2 d (by simp)
      have hlt : d.r < 128 := by
        simp [isWs] at hd; omega
      have := (h1 d (by simp)).2 hlt
      simp only [bytesOf_cons, this, List.cons_append, List.nil_append, List.dropWhile_cons]
      rw [isBreak_eq, hd]
      simp only [if_true]
      exact ih (fun d hd => h1 d (by simp [hd])) (fun d hd => h2 d (by simp [hd])) y
  rw [List.append_assoc, bytesOf_append,
    key w (fun d hd => hwf d (by rw [hr]; simp [hd])) hs.wsw]
  simp only [List.cons_append, bytesOf_cons, hcb, List.dropWhile_cons, List.nil_append]
  rw [isBreak_eq, hc]
  simp

/-- The token read after a script character, when it yields no node. -/
theorem blankOrComment {U x s t s'} {m : Mode} (h : Src x s) (hs : scan U s = .ok (t, s'))
    (hk : t.kind = .comment ∨ m = .math ∧ t.kind = .space) : BlankOrComment x m.isMath s.off := by
  obtain ⟨w, body, h1⟩ := scan_spec hs
  have hwf := h.wf
  have hsh := h1.shape
  rcases hk with hk | ⟨rfl, hk⟩
  · rw [hk] at hsh
    obtain ⟨c, mid, hb, hc, _⟩ := hsh
    have := afterBreaks_scan h h1 hb (by rw [hc]; rfl) (by omega)
    rw [hc] at this
    exact .inl (by rw [this]; simp)
  · rw [hk] at hsh
    rcases hsh with ⟨_, c, hb, hc⟩ | ⟨_, c, d, hb, hc, hd⟩
    · have := afterBreaks_scan h h1 hb (by rw [hc]; rfl) (by omega)
      rw [hc] at this
      exact .inr ⟨rfl, .inl (by rw [this]; simp)⟩
    · have := afterBreaks_scan h h1 hb (by rw [hc]; rfl) (by omega)
      have hdb := (hwf d (by rw [h1.rest, hb]; simp)).2 (by omega)
      rw [hc] at this
      refine .inr ⟨rfl, .inr ?_⟩
      rw [this]
      simp [hdb, hd]

theorem TokAt.wordText {U x t s body} (h : TokAt U x t s body) (hk : t.kind = .word) :
    WordText U t.text := by
  have hs := h.shape
  have hp := h.leaf_len (by simp [hk])
  rw [hk] at hs
  obtain ⟨h1, h2, h3⟩ := hs
  refine ⟨by intro h0; rw [h0] at hp; simp at hp, ?_⟩
  rw [h1, h.decode]
  exact h3

theorem TokAt.litText {U x t s body} (h : TokAt U x t s body) (hk : t.kind = .number) :
    LitText t.text := by
  have hs := h.shape
  rw [hk] at hs
  obtain ⟨h1, c, mid, rfl, h2, h3⟩ := hs
  have dec : ∀ d ∈ c :: mid, isDecimal d.r = true → d.b = [d.r] := by
    intro d hd h4
    exact (h.wf d hd).2 (by simp [isDecimal] at h4; omega)
  rcases h2 with h2 | ⟨h2, h4⟩
  · have := dec c (by simp) h2
    exact ⟨c.r, bytesOf mid, h2, .inl (by rw [h1]; simp [this])⟩
  · cases mid with
    | nil => simp [nextIs] at h4
    | cons d mid =>
      simp only [nextIs] at h4
      have hd := dec d (by simp) h4
      have hc := (h.wf c (by simp)).2 (by omega)
      exact ⟨d.r, bytesOf mid, h4, .inr (by rw [h1]; simp [hd, hc, h2])⟩

theorem TokAt.symText {U x t s body} (h : TokAt U x t s body) (b : Bool) (hk : t.kind = .symbol)
    (h1 : t.text ≠ bs!"$") (h2 : t.text ≠ bs!"^") (h3 : t.text ≠ bs!"_") : SymText b t.text := by
  have hs := h.shape
  rw [hk] at hs
  obtain ⟨c, hb, ht, hc⟩ := hs
  have hlt : c.r < 128 := by
    revert hc; generalize c.r = r
    simp only [symbolChars, List.mem_cons, List.not_mem_nil, or_false]
    omega
  obtain ⟨h4, _⟩ := h.single hb ht rfl hlt
  rw [h4] at h1 h2 h3 ⊢
  refine .inl ⟨c.r, ?_, rfl⟩
  revert hc h1 h2 h3; generalize c.r = r
  simp only [symbolChars, List.mem_cons, List.not_mem_nil, or_false, ne_eq, List.cons.injEq, and_true]
  omega

theorem TokAt.delimText {U x t s body} (h : TokAt U x t s body) (b : Bool)
    (hk : t.kind = .lparen ∨ t.kind = .rparen ∨ t.kind = .lbrack ∨ t.kind = .rbrack) :
    SymText b t.text := by
  have hs := h.shape
  rcases hk with hk | hk | hk | hk <;> rw [hk] at hs <;> obtain ⟨c, hb, ht, hc⟩ := hs <;>
    obtain ⟨h4, _⟩ := h.single hb ht hc (by omega) <;> rw [h4] <;> exact .inl ⟨_, by decide, rfl⟩

theorem TokAt.spaceText {U x t s body} (h : TokAt U x t s body) (hk : t.kind = .space) :
    SymText false t.text := by
  have hs := h.shape
  rw [hk] at hs
  rcases hs with ⟨h1, _⟩ | ⟨h1, _⟩
  · exact .inr ⟨rfl, .inl h1⟩
  · exact .inr ⟨rfl, .inr h1⟩

theorem shapeL_if {U x m n l} (h1 : n = .nil ∨ Shape U x m n) (h2 : ShapeL U x m l) :
    ShapeL U x m (if n.isNil then l else n :: l) := by
  rcases h1 with rfl | h1
  · exact h2
  · have : n.isNil = false := by cases n <;> simp_all [Shape, Node.isNil]
    simp [this, ShapeL, h1, h2]

/-- The token of a node that the parser drops. -/
def Dropped (m : Mode) (t : Token) : Prop := t.kind = .comment ∨ m = .math ∧ t.kind = .space

/-- Every successful parse yields well-shaped nodes. -/
theorem P.shape {U : Nat → Bool} {x : GoString} {c m s l cl s'} (h : P U c m s l cl s') :
    match (generalizing := false) c with
    | .one t => (∃ body, TokAt U x t s body) → ∃ n, l = [n] ∧
        (n = .nil ∧ Dropped m t ∨ Shape U x m.isMath n)
    | .loop st => Src x s → (st = .never ∨ 0 < s.off) → ShapeL U x m.isMath l
    | .args _ => Src x s → ShapeArgs U x m.isMath l := by
  induction h with
  | comment hk => exact fun _ => ⟨_, rfl, .inl ⟨rfl, .inl hk⟩⟩
  | «macro» hk hl ha ih =>
    rintro ⟨body, ht⟩
    exact ⟨_, rfl, .inr (by simp only [Shape]; exact ih ht.src)⟩
  | word hk =>
    rintro ⟨body, ht⟩
    exact ⟨_, rfl, .inr (by simp only [Shape]; exact ht.wordText hk)⟩
  | number hk =>
    rintro ⟨body, ht⟩
    exact ⟨_, rfl, .inr (by simp only [Shape]; exact ht.litText hk)⟩
  | math hk htx _ ih =>
    rintro ⟨body, ht⟩
    have := ht.pos_lt (by simp [hk])
    exact ⟨_, rfl, .inr (by simp only [Shape]; exact ⟨htx, ih ht.src (.inr (by omega))⟩)⟩
  | supGroup hk htx _ hsc htx1 _ ih | subGroup hk htx _ hsc htx1 _ ih =>
    rintro ⟨body, ht⟩
    obtain ⟨b1, ht1, hle⟩ := ht.src.scan hsc
    have := ht.pos_lt (by simp [hk])
    have := ht1.off
    exact ⟨_, rfl, .inr (by
      simp only [Shape]; exact .inr (by simp only [Operand]; exact ih ht1.src (.inr (by omega))))⟩
  | supOne hk htx _ hsc _ ih | subOne hk htx _ hsc _ ih =>
    rintro ⟨body, ht⟩
    obtain ⟨b1, ht1, hle⟩ := ht.src.scan hsc
    obtain ⟨n', hn, h1⟩ := ih ⟨b1, ht1⟩
    obtain rfl : _ = n' := by simpa using hn
    have h2 := ht.leaf_len (by simp [hk])
    rw [htx] at h2
    refine ⟨_, rfl, .inr ?_⟩
    simp only [Shape]
    rcases h1 with ⟨rfl, hd⟩ | h1
    · refine .inl ⟨rfl, ?_⟩
      have := blankOrComment ht.src hsc hd
      rw [← h2.2] at this
      exact this
    · exact .inr (shape_operand h1)
  | symbol hk h1 h2 h3 =>
    rintro ⟨body, ht⟩
    exact ⟨_, rfl, .inr (by simp only [Shape]; exact ht.symText _ hk h1 h2 h3)⟩
  | group hk _ ih =>
    rintro ⟨body, ht⟩
    have := ht.pos_lt (by simp [hk])
    exact ⟨_, rfl, .inr (by simp only [Shape]; exact ⟨rfl, ih ht.src (.inr (by omega))⟩)⟩
  | spaceMath hk => exact fun _ => ⟨_, rfl, .inl ⟨rfl, .inr ⟨rfl, hk⟩⟩⟩
  | spaceText hk =>
    rintro ⟨body, ht⟩
    exact ⟨_, rfl, .inr (by simp only [Shape]; exact ht.spaceText hk)⟩
  | delim hk =>
    rintro ⟨body, ht⟩
    exact ⟨_, rfl, .inr (by simp only [Shape]; exact ht.delimText _ hk)⟩
  | loopEof hsc hk => intro _ _; simp only [ShapeL]
  | loopStop hsc hk hst => intro _ _; simp only [ShapeL]
  | loopCons hsc hk hst h1 h2 ih1 ih2 =>
    intro hs h0
    obtain ⟨b1, ht1, hle⟩ := hs.scan hsc
    obtain ⟨n', hn, h3⟩ := ih1 ⟨b1, ht1⟩
    obtain rfl : _ = n' := by simpa using hn
    obtain ⟨h4, h5, _⟩ := h1.order ⟨b1, ht1⟩
    have := ht1.pos_lt hk
    refine shapeL_if (h3.imp (fun h => h.1) id) (ih2 h4 (.inr (by omega)))
  | argsNil => intro _; simp only [ShapeArgs]
  | argsArg _ hsc htx hp _ ih1 ih2 | argsOpt _ _ hsc htx hp _ ih1 ih2 =>
    intro hs
    obtain ⟨b1, ht1, hle⟩ := hs.scan hsc
    have h3 := ht1.expected htx (by decide)
    obtain ⟨h4, _⟩ := hp.order ht1.src (.inr (by omega))
    simp only [ShapeArgs]
    exact ⟨ih1 ht1.src (.inr (by omega)), ih2 h4⟩
  | argsNoOpt _ _ _ ih => exact ih
  | argsOther _ _ _ ih => exact ih

/-! ## Local facts about each node -/

/-- Facts about a single node of a parse result and the source. -/
def Local (x : GoString) : Node → Prop
  | .word p t => slice x p (p + t.length) = t
  | .lit p t => slice x p (p + t.length) = t
  | .sym p t => slice x p (p + t.length) = t
  | .macro (some (p, name)) args =>
      (∃ w rest y, (∀ b ∈ w, isBreak b = true) ∧ name = ch!"\\" :: rest ∧
        x.drop p = ch!"\\" :: (w ++ rest ++ y)) ∧
      ∃ sig, macroLookup name = some (some sig) ∧ ∃ sig', sig' = sig.map (fun c =>
        if c = ch!"a" then ch!"A" else if c = ch!"o" then ch!"O" else c) ∧
        ArgsMatch (sig'.filter fun c => c == ch!"A" || c == ch!"O") args
  | .arg a _ b => slice x a (a + 1) = bs!"{" ∧ (b = 0 ∨ slice x b (b + 1) = bs!"}")
  | .optArg a _ b => slice x a (a + 1) = bs!"[" ∧ (b = 0 ∨ slice x b (b + 1) = bs!"]")
  | .math _ a _ b => slice x a (a + 1) = bs!"$" ∧ (b = 0 ∨ slice x b (b + 1) = bs!"$")
  | .sub p _ => slice x p (p + 1) = bs!"_"
  | .sup p _ => slice x p (p + 1) = bs!"^"
  | _ => True

theorem allNodesL_if (n : Node) (l : List Node) (P : Node → Prop) (h1 : ∀ k ∈ allNodes n, P k)
    (h2 : ∀ k ∈ allNodesL l, P k) : ∀ k ∈ allNodesL (if n.isNil then l else n :: l), P k := by
  split
  · exact h2
  · intro k hk
    simp only [allNodesL, List.mem_append] at hk
    rcases hk with hk | hk
    · exact h1 k hk
    · exact h2 k hk

theorem allNodesL_single (n : Node) : allNodesL [n] = allNodes n := by simp [allNodesL]

/-- The canonical form of a signature: upper case, argument letters only. -/
def canonSig (sig : GoString) : GoString :=
  (sig.map (fun c => if c = ch!"a" then ch!"A" else if c = ch!"o" then ch!"O" else c)).filter
    fun c => c == ch!"A" || c == ch!"O"

theorem canonSig_arg {c : Nat} {sig : GoString} (h : c = ch!"A" ∨ c = ch!"a") :
    canonSig (c :: sig) = ch!"A" :: canonSig sig := by
  rcases h with rfl | rfl <;> simp [canonSig]

theorem canonSig_opt {c : Nat} {sig : GoString} (h : c = ch!"O" ∨ c = ch!"o") :
    canonSig (c :: sig) = ch!"O" :: canonSig sig := by
  rcases h with rfl | rfl <;> simp [canonSig]

theorem canonSig_other {c : Nat} {sig : GoString} (h1 : ¬ (c = ch!"A" ∨ c = ch!"a"))
    (h2 : ¬ (c = ch!"O" ∨ c = ch!"o")) : canonSig (c :: sig) = canonSig sig := by
  have : c ≠ 97 ∧ c ≠ 111 ∧ c ≠ 65 ∧ c ≠ 79 := by omega
  simp [canonSig, this]

theorem TokAt.macroName {U x t s body} (h : TokAt U x t s body) (hk : t.kind = .macro) :
    ∃ w rest y, (∀ b ∈ w, isBreak b = true) ∧ t.text = ch!"\\" :: rest ∧
        x.drop t.pos = ch!"\\" :: (w ++ rest ++ y) := by
  have hs := h.shape
  rw [hk] at hs
  obtain ⟨c, w, nm, rfl, h1, h2, h3, _⟩ := hs
  have hc := (h.wf c (by simp)).2 (by omega)
  refine ⟨bytesOf w, bytesOf nm, bytesOf s.rest, ?_, h3, ?_⟩
  · intro b hb
    simp only [bytesOf, List.mem_flatMap] at hb
    obtain ⟨d, hd, hb⟩ := hb
    have hw := h2 d hd
    have := (h.wf d (by simp [hd])).2 (by simp [isWs] at hw; omega)
    rw [this] at hb
    simp only [List.mem_singleton] at hb
    rw [hb]; exact hw
  · have := h.start.drop
    rw [this]
    simp [hc, h1]

theorem P.local {U : Nat → Bool} {x : GoString} {c m s l cl s'} (h : P U c m s l cl s') :
    match (generalizing := false) c with
    | .one t => (∃ body, TokAt U x t s body) → ∀ k ∈ allNodesL l, Local x k
    | .loop st => Src x s → (st = .never ∨ 0 < s.off) → (∀ k ∈ allNodesL l, Local x k) ∧
        (cl = 0 ∨ match (generalizing := false) st with
          | .never => False
          | .dollar => slice x cl (cl + 1) = bs!"$"
          | .rbrace => slice x cl (cl + 1) = bs!"}"
          | .rbrack => slice x cl (cl + 1) = bs!"]")
    | .args sig => Src x s → (∀ k ∈ allNodesL l, Local x k) ∧ ArgsMatch (canonSig sig) l := by
  have one : ∀ n : Node, ∀ rest : List Node, allNodes n = n :: rest → Local x n → (∀ k ∈ rest, Local x k) →
      ∀ k ∈ allNodesL [n], Local x k := by
    intro n rest h1 h2 h3 k hk
    rw [allNodesL_single, h1] at hk
    rcases List.mem_cons.1 hk with rfl | hk
    · exact h2
    · exact h3 k hk
  induction h with
  | comment hk | spaceMath hk => exact fun _ => one _ [] (by simp [allNodes]) trivial (by simp)
  | «macro» hk hl ha ih =>
    rintro ⟨body, ht⟩
    obtain ⟨h1, h2⟩ := ih ht.src
    exact one _ _ (by simp only [allNodes]; try rfl) ⟨ht.macroName hk, _, hl, _, rfl, h2⟩ h1
  | word hk | number hk | symbol hk | spaceText hk =>
    rintro ⟨body, ht⟩
    exact one _ [] (by simp [allNodes]) (ht.leaf_slice (ht.leaf (by simp [hk]))).1 (by simp)
  | delim hk =>
    rintro ⟨body, ht⟩
    exact one _ [] (by simp [allNodes])
      (ht.leaf_slice (ht.leaf (by rcases hk with hk | hk | hk | hk <;> simp [hk]))).1 (by simp)
  | math hk htx _ ih =>
    rintro ⟨body, ht⟩
    have := ht.pos_lt (by simp [hk])
    obtain ⟨h1, h2⟩ := ih ht.src (.inr (by omega))
    have h3 := (ht.leaf_slice (ht.leaf (by simp [hk]))).1
    rw [htx] at h3
    exact one _ _ (by simp only [allNodes]; try rfl) ⟨h3, h2⟩ h1
  | supGroup hk htx _ hsc htx1 _ ih | subGroup hk htx _ hsc htx1 _ ih =>
    rintro ⟨body, ht⟩
    obtain ⟨b1, ht1, hle⟩ := ht.src.scan hsc
    have := ht.pos_lt (by simp [hk])
    have := ht1.off
    obtain ⟨h1, _⟩ := ih ht1.src (.inr (by omega))
    have h3 := (ht.leaf_slice (ht.leaf (by simp [hk]))).1
    rw [htx] at h3
    refine one _ _ (by simp only [allNodes]; try rfl) h3 ?_
    intro k hk
    rcases List.mem_cons.1 hk with rfl | hk
    · trivial
    · exact h1 k hk
  | supOne hk htx _ hsc _ ih | subOne hk htx _ hsc _ ih =>
    rintro ⟨body, ht⟩
    obtain ⟨b1, ht1, hle⟩ := ht.src.scan hsc
    have h1 := ih ⟨b1, ht1⟩
    have h3 := (ht.leaf_slice (ht.leaf (by simp [hk]))).1
    rw [htx] at h3
    rw [allNodesL_single] at h1
    exact one _ _ (by simp only [allNodes]; try rfl) h3 h1
  | group hk _ ih =>
    rintro ⟨body, ht⟩
    have := ht.pos_lt (by simp [hk])
    obtain ⟨h1, _⟩ := ih ht.src (.inr (by omega))
    exact one _ _ (by simp only [allNodes]; try rfl) trivial h1
  | loopEof hsc hk => intro _ _; exact ⟨by simp [allNodesL], .inl rfl⟩
  | @loopStop st m s t s' hsc hk hst =>
    intro hs h0
    obtain ⟨b1, ht1, hle⟩ := hs.scan hsc
    exact ⟨by simp [allNodesL], .inr (Stop.closes st ht1 hst).2⟩
  | loopCons hsc hk hst h1 h2 ih1 ih2 =>
    intro hs h0
    obtain ⟨b1, ht1, hle⟩ := hs.scan hsc
    have h3 := ih1 ⟨b1, ht1⟩
    obtain ⟨h4, h5, _⟩ := h1.order ⟨b1, ht1⟩
    have := ht1.pos_lt hk
    obtain ⟨h6, h7⟩ := ih2 h4 (.inr (by omega))
    rw [allNodesL_single] at h3
    exact ⟨allNodesL_if _ _ _ h3 h6, h7⟩
  | argsNil => intro _; exact ⟨by simp [allNodesL], .nil⟩
  | argsArg hc hsc htx hp _ ih1 ih2 =>
    intro hs
    obtain ⟨b1, ht1, hle⟩ := hs.scan hsc
    have h3 := ht1.expected htx (by decide)
    obtain ⟨h4, _⟩ := hp.order ht1.src (.inr (by omega))
    obtain ⟨h5, h6⟩ := ih1 ht1.src (.inr (by omega))
    obtain ⟨h7, h8⟩ := ih2 h4
    refine ⟨?_, by rw [canonSig_arg hc]; exact .arg _ _ _ h8⟩
    intro k hk
    simp only [allNodesL, allNodes, List.cons_append, List.mem_cons, List.mem_append] at hk
    rcases hk with rfl | hk | hk
    · exact ⟨h3.2, h6⟩
    · exact h5 k hk
    · exact h7 k hk
  | argsOpt hc _ hsc htx hp _ ih1 ih2 =>
    intro hs
    obtain ⟨b1, ht1, hle⟩ := hs.scan hsc
    have h3 := ht1.expected htx (by decide)
    obtain ⟨h4, _⟩ := hp.order ht1.src (.inr (by omega))
    obtain ⟨h5, h6⟩ := ih1 ht1.src (.inr (by omega))
    obtain ⟨h7, h8⟩ := ih2 h4
    refine ⟨?_, by rw [canonSig_opt hc]; exact .opt _ _ _ h8⟩
    intro k hk
    simp only [allNodesL, allNodes, List.cons_append, List.mem_cons, List.mem_append] at hk
    rcases hk with rfl | hk | hk
    · exact ⟨h3.2, h6⟩
    · exact h5 k hk
    · exact h7 k hk
  | argsNoOpt hc _ _ ih =>
    intro hs
    obtain ⟨h1, h2⟩ := ih hs
    exact ⟨h1, by rw [canonSig_opt hc]; exact .noOpt h2⟩
  | argsOther h1 h2 _ ih =>
    intro hs
    obtain ⟨h3, h4⟩ := ih hs
    exact ⟨h3, by rw [canonSig_other h1 h2]; exact h4⟩

/-! ## Unterminated constructs come last -/

theorem closer_zero : closer 0 = [] := rfl

theorem scan_text_nil {U s t s'} (h : scan U s = .ok (t, s')) (hs : s.rest = []) :
    t.kind = .eof ∧ t.text = [] ∧ s'.rest = [] := by
  have : s = ⟨[], s.off⟩ := by cases s; simp_all
  rw [this, scan_nil] at h
  simp only [Res.ok.injEq, Prod.mk.injEq] at h
  obtain ⟨rfl, rfl⟩ := h
  exact ⟨rfl, rfl, rfl⟩

/-- Nothing is parsed from the empty input. -/
theorem P.empty {U c m s l cl s'} (h : P U c m s l cl s') (hs : s.rest = []) :
    match (generalizing := false) c with
    | .one _ => True
    | .loop _ => l = [] ∧ cl = 0
    | .args _ => l = [] := by
  induction h with
  | loopEof hsc hk => exact ⟨rfl, rfl⟩
  | loopStop hsc hk hst => exact absurd (scan_text_nil hsc hs).1 hk
  | loopCons hsc hk hst h1 h2 ih1 ih2 => exact absurd (scan_text_nil hsc hs).1 hk
  | argsNil => rfl
  | argsArg hc hsc htx hp _ ih1 ih2 | argsOpt hc _ hsc htx hp _ ih1 ih2 =>
    rw [(scan_text_nil hsc hs).2.1] at htx; simp at htx
  | argsNoOpt hc _ _ ih => exact ih hs
  | argsOther h1 h2 _ ih => exact ih hs
  | _ => trivial

theorem suffix_cons_of {α} {a b : List α} {c : α} (h : a <:+ b) : a <:+ c :: b :=
  List.IsSuffix.trans h (List.suffix_cons _ _)

theorem P.last {U : Nat → Bool} {x : GoString} {c m s l cl s'} (h : P U c m s l cl s') :
    match (generalizing := false) c with
    | .one t => (∃ body, TokAt U x t s body) →
        ∀ k ∈ allNodesL l, isOpen k = true → marks k <:+ marksL l ∧ s'.rest = []
    | .loop st => Src x s → (st = .never ∨ 0 < s.off) → (cl = 0 → s'.rest = []) ∧
        ∀ k ∈ allNodesL l, isOpen k = true → marks k <:+ marksL l ∧ s'.rest = [] ∧ cl = 0
    | .args sig => Src x s →
        ∀ k ∈ allNodesL l, isOpen k = true → marks k <:+ marksL l ∧ s'.rest = [] := by
  induction h with
  | comment hk | spaceMath hk | word hk | number hk | symbol hk | spaceText hk | delim hk =>
    intro _ k hk hop
    simp only [allNodesL, allNodes, List.append_nil, List.mem_singleton] at hk
    subst hk; simp [isOpen] at hop
  | «macro» hk hl ha ih =>
    rintro ⟨body, ht⟩ k hk hop
    simp only [allNodesL, allNodes, List.append_nil, List.mem_cons] at hk
    rcases hk with rfl | hk
    · simp [isOpen] at hop
    · obtain ⟨h1, h2⟩ := ih ht.src k hk hop
      exact ⟨by rw [marksL_single]; simp only [marks]; exact suffix_cons_of h1, h2⟩
  | @math t _ _ _ c _ hk htx _ ih =>
    rintro ⟨body, ht⟩ k hk' hop
    have := ht.pos_lt (by simp [hk])
    obtain ⟨h1, h2⟩ := ih ht.src (.inr (by omega))
    simp only [allNodesL, allNodes, List.append_nil, List.mem_cons] at hk'
    rcases hk' with rfl | hk'
    · have hc : c = 0 := by cases c <;> simp_all [isOpen]
      exact ⟨by rw [marksL_single]; exact List.suffix_refl _, h1 hc⟩
    · obtain ⟨h3, h4, h5⟩ := h2 k hk' hop
      refine ⟨?_, h4⟩
      rw [marksL_single]; simp only [marks, h5, closer_zero, List.append_nil]
      exact suffix_cons_of h3
  | supGroup hk htx _ hsc htx1 _ ih | subGroup hk htx _ hsc htx1 _ ih =>
    rintro ⟨body, ht⟩ k hk' hop
    obtain ⟨b1, ht1, hle⟩ := ht.src.scan hsc
    have := ht.pos_lt (by simp [hk])
    have := ht1.off
    obtain ⟨_, h2⟩ := ih ht1.src (.inr (by omega))
    simp only [allNodesL, allNodes, List.append_nil, List.mem_cons] at hk'
    rcases hk' with rfl | rfl | hk'
    · simp [isOpen] at hop
    · simp [isOpen] at hop
    · obtain ⟨h3, h4, h5⟩ := h2 k hk' hop
      exact ⟨by rw [marksL_single]; simp only [marks]; exact suffix_cons_of h3, h4⟩
  | supOne hk htx _ hsc _ ih | subOne hk htx _ hsc _ ih =>
    rintro ⟨body, ht⟩ k hk' hop
    obtain ⟨b1, ht1, hle⟩ := ht.src.scan hsc
    have h1 := ih ⟨b1, ht1⟩
    rw [allNodesL_single, marksL_single] at h1
    simp only [allNodesL, allNodes, List.append_nil, List.mem_cons] at hk'
    rcases hk' with rfl | hk'
    · simp [isOpen] at hop
    · obtain ⟨h3, h4⟩ := h1 k hk' hop
      exact ⟨by rw [marksL_single]; simp only [marks]; exact suffix_cons_of h3, h4⟩
  | group hk _ ih =>
    rintro ⟨body, ht⟩ k hk' hop
    have := ht.pos_lt (by simp [hk])
    obtain ⟨_, h2⟩ := ih ht.src (.inr (by omega))
    simp only [allNodesL, allNodes, List.append_nil, List.mem_cons] at hk'
    rcases hk' with rfl | hk'
    · simp [isOpen] at hop
    · obtain ⟨h3, h4, h5⟩ := h2 k hk' hop
      exact ⟨by rw [marksL_single]; simp only [marks]; exact h3, h4⟩
  | loopEof hsc hk =>
    intro hs h0
    obtain ⟨w, body, h1⟩ := scan_spec hsc
    exact ⟨fun _ => h1.eof hk, by simp [allNodesL]⟩
  | @loopStop st m s t s' hsc hk hst =>
    intro hs h0
    obtain ⟨b1, ht1, hle⟩ := hs.scan hsc
    have hn : st ≠ .never := by rintro rfl; simp [Stop.test] at hst
    have h0' : 0 < s.off := by rcases h0 with h0 | h0; exact absurd h0 hn; exact h0
    exact ⟨by omega, by simp [allNodesL]⟩
  | @loopCons st m s t s1 n s2 l c s' hsc hk hst h1 h2 ih1 ih2 =>
    intro hs h0
    obtain ⟨b1, ht1, hle⟩ := hs.scan hsc
    have h3 := ih1 ⟨b1, ht1⟩
    obtain ⟨h4, h5, _⟩ := h1.order ⟨b1, ht1⟩
    have := ht1.pos_lt hk
    obtain ⟨h6, h7⟩ := ih2 h4 (.inr (by omega))
    rw [allNodesL_single, marksL_single] at h3
    refine ⟨h6, allNodesL_if _ _ _ ?_ ?_⟩
    · intro k hk hop
      obtain ⟨h8, h9⟩ := h3 k hk hop
      obtain ⟨rfl, rfl⟩ := h2.empty h9
      refine ⟨?_, ?_, rfl⟩
      · rw [marksL_if]; simpa [marksL] using h8
      · have := h2.len
        rw [h9] at this
        simpa using this
    · intro k hk hop
      obtain ⟨h8, h9⟩ := h7 k hk hop
      exact ⟨by rw [marksL_if]; exact h8.trans (List.suffix_append _ _), h9⟩
  | argsNil => intro _; simp [allNodesL]
  | @argsArg _ _ _ _ _ _ _ cl _ as s' hc hsc htx hp hp2 ih1 ih2
  | @argsOpt _ _ _ _ _ _ _ cl _ as s' hc _ hsc htx hp hp2 ih1 ih2 =>
    intro hs k hk hop
    obtain ⟨b1, ht1, hle⟩ := hs.scan hsc
    have h3 := ht1.expected htx (by decide)
    obtain ⟨h4, _⟩ := hp.order ht1.src (.inr (by omega))
    obtain ⟨h5, h6⟩ := ih1 ht1.src (.inr (by omega))
    have h7 := ih2 h4
    have fin : ∀ {s2 : SS} {sig : GoString} {m : Mode}, s2.rest = [] → P U (.args sig) m s2 as 0 s' → as = [] ∧ s'.rest = [] := by
      intro s2 sig m h8 hp2
      refine ⟨hp2.empty h8, ?_⟩
      have := hp2.len
      rw [h8] at this
      simpa using this
    simp only [allNodesL, allNodes, List.cons_append, List.mem_cons, List.mem_append] at hk
    rcases hk with rfl | hk | hk
    · have hc : cl = 0 := by cases cl <;> simp_all [isOpen]
      obtain ⟨rfl, h9⟩ := fin (h5 hc) hp2
      exact ⟨by rw [marksL_single]; exact List.suffix_refl _, h9⟩
    · obtain ⟨h8, h9, h10⟩ := h6 k hk hop
      obtain ⟨rfl, h11⟩ := fin h9 hp2
      refine ⟨?_, h11⟩
      rw [marksL_single]; simp only [marks, h10, closer_zero, List.append_nil]
      exact suffix_cons_of h8
    · obtain ⟨h8, h9⟩ := h7 k hk hop
      exact ⟨by simp only [marksL]; exact h8.trans (List.suffix_append _ _), h9⟩
  | argsNoOpt _ _ _ ih => exact ih
  | argsOther _ _ _ ih => exact ih

end Verif
