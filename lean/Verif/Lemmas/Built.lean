import Verif.Lemmas.Drawable
import Verif.Spec.Contain
/-! # Properties shared by all boxes built by mtex -/

namespace Verif
variable {F : Type} [GoFloat F]
open GoFloat Spec

/-- `P` holds of what the constructions of mtex make of boxes for which it holds.  `S` holds of the
states, `W` of the widths of blanks relative to an em. -/
structure Closed (be : Backend F) (S : TState F → Prop) (W : F → Prop) (P : TNode F → Prop) : Prop where
  font : ∀ st t, S st → S (st.withType t)
  const : ∀ a b, W (ofRat a b)
  char : ∀ c st m ch, S st → newChar be c st m = .ok ch → P (.char ch)
  space : ∀ st w n, S st → W w → makeSpace be st w = .ok n → P n
  hlist : ∀ l, (∀ n ∈ l, P n) → P (hlistOf be l true)
  frac : ∀ dl rule ds a b st n, S st → (rule = be.underline st.font st.dpi ∨ rule = zero) → (∀ n ∈ a, P n) → (∀ n ∈ b, P n) →
    genfrac be dl rule ds (hlistOf be a true) (hlistOf be b true) st = .ok n → P n
  sqrt : ∀ root b st n, S st → (∀ r, root = some r → P r) → (∀ n ∈ b, P n) →
    buildSqrt be root (hbody be b).1 (hbody be b).2 st = .ok n → P n
  over : ∀ b st n, S st → (∀ n ∈ b, P n) → buildOverline be (hbody be b).1 (hbody be b).2 st = .ok n → P n

/-- The same with a count `k` of bars one inside another, which grows with `\sqrt` and `\overline`, and with
a condition `G` on the modes in which characters are made. -/
structure ClosedIx (be : Backend F) (S : TState F → Prop) (G : Bool → Prop) (W : F → Prop) (P : Nat → TNode F → Prop) : Prop where
  mono : ∀ k n, P k n → P (k + 1) n
  mode : G true
  font : ∀ st t, S st → S (st.withType t)
  const : ∀ a b, W (ofRat a b)
  char : ∀ k c st m ch, S st → G m → newChar be c st m = .ok ch → P k (.char ch)
  space : ∀ k st w n, S st → W w → makeSpace be st w = .ok n → P k n
  hlist : ∀ k l, (∀ n ∈ l, P k n) → P k (hlistOf be l true)
  frac : ∀ k dl rule ds a b st n, S st → (rule = be.underline st.font st.dpi ∨ rule = zero) → (∀ n ∈ a, P k n) → (∀ n ∈ b, P k n) →
    genfrac be dl rule ds (hlistOf be a true) (hlistOf be b true) st = .ok n → P k n
  sqrt : ∀ k root b st n, S st → (∀ r, root = some r → P k r) → (∀ n ∈ b, P k n) →
    buildSqrt be root (hbody be b).1 (hbody be b).2 st = .ok n → P (k + 1) n
  over : ∀ k b st n, S st → (∀ n ∈ b, P k n) → buildOverline be (hbody be b).1 (hbody be b).2 st = .ok n → P (k + 1) n

theorem Closed.toIx {be : Backend F} {S : TState F → Prop} {W : F → Prop} {P : TNode F → Prop} (H : Closed be S W P) :
    ClosedIx be S (fun _ => True) W (fun _ => P) :=
  ⟨fun _ _ h => h, trivial, H.font, H.const, fun _ c st m ch hs _ h => H.char c st m ch hs h, fun _ => H.space, fun _ => H.hlist,
    fun _ => H.frac, fun _ => H.sqrt, fun _ => H.over⟩

section
variable {be : Backend F} {S : TState F → Prop} {G : Bool → Prop} {W : F → Prop} {P : TNode F → Prop} {Q : Nat → TNode F → Prop} {num : GoString → Option F} {x : GoString}

/-- The result, if any, is made of nodes with the property. -/
def AllRes (P : TNode F → Prop) (r : Res (List (TNode F))) : Prop := ∀ l, r = .ok l → ∀ n ∈ l, P n

omit [GoFloat F] in
theorem allRes_panic {p : Panic} : AllRes P (.panic p) := fun _ h => by cases h

omit [GoFloat F] in
theorem allRes_nil : AllRes P (.ok []) := fun l h n hn => by cases h; cases hn

omit [GoFloat F] in
theorem allRes_one {r : Res (TNode F)} (h : ∀ n, r = .ok n → P n) : AllRes P (r >>= fun n => .ok [n]) := by
  intro l hl
  obtain ⟨n, hn, e⟩ := Res.bind_eq_ok.1 hl
  cases e
  intro n' hn'
  rw [List.mem_singleton] at hn'
  rw [hn']; exact h n hn

omit [GoFloat F] in
theorem allRes_append {r s : Res (List (TNode F))} (h : AllRes P r) (h' : AllRes P s) :
    AllRes P (r >>= fun a => s >>= fun b => .ok (a ++ b)) := by
  intro l hl
  obtain ⟨a, ha, hl⟩ := Res.bind_eq_ok.1 hl
  obtain ⟨b, hb, hl⟩ := Res.bind_eq_ok.1 hl
  cases hl
  intro n hn
  rcases List.mem_append.1 hn with hn | hn
  · exact h a ha n hn
  · exact h' b hb n hn

theorem mem2 {a b : TNode F} (ha : P a) (hb : P b) : ∀ n ∈ [a, b], P n := by
  intro n hn; simp only [List.mem_cons, List.not_mem_nil, or_false] at hn
  rcases hn with rfl | rfl <;> assumption

theorem mem3 {a b c : TNode F} (ha : P a) (hb : P b) (hc : P c) : ∀ n ∈ [a, b, c], P n := by
  intro n hn; simp only [List.mem_cons, List.not_mem_nil, or_false] at hn
  rcases hn with rfl | rfl | rfl <;> assumption

theorem ClosedIx.symbol (H : ClosedIx be S G W Q) {k : Nat} {st : TState F} (hs : S st) {pos : Nat} {t : GoString} {m : Bool} (hm : G m) {n : TNode F}
    (h : handleSymbol be x pos t st m = .ok n) : Q k n := by
  unfold handleSymbol at h
  obtain ⟨ch, hc, h⟩ := Res.bind_eq_ok.1 h
  have g := H.char k _ _ _ _ hs hm hc
  have two : W (ofRat 2 10) := H.const 2 10
  split at h
  · dsimp only at h
    split at h
    · simp only [Res.ok.injEq] at h; subst h; exact g
    · obtain ⟨k1, e1, h⟩ := Res.bind_eq_ok.1 h
      obtain ⟨k2, e2, h⟩ := Res.bind_eq_ok.1 h
      simp only [Res.ok.injEq] at h; subst h
      exact H.hlist _ _ (mem3 (H.space _ _ _ _ hs two e1) g (H.space _ _ _ _ hs two e2))
  · split at h
    · split at h
      · split at h
        · simp only [Res.ok.injEq] at h; subst h; exact g
        · obtain ⟨k1, e1, h⟩ := Res.bind_eq_ok.1 h
          simp only [Res.ok.injEq] at h; subst h
          exact H.hlist _ _ (mem2 g (H.space _ _ _ _ hs two e1))
      · cases h
    · simp only [Res.ok.injEq] at h; subst h; exact g

theorem ClosedIx.blank (H : ClosedIx be S G W Q) {k : Nat} {st : TState F} (hs : S st) {t : GoString} {n : TNode F}
    (h : handleSpace be t st = .ok n) : Q k n := by
  unfold handleSpace at h
  split at h
  · exact H.space _ _ _ _ hs (H.const _ _) h
  · cases h

theorem ClosedIx.chars (H : ClosedIx be S G W Q) {k : Nat} {st : TState F} (hs : S st) {m : Bool} (hm : G m) (l : List Ch) :
    AllRes (Q k) (newChars be st m l) := by
  induction l with
  | nil => exact allRes_nil
  | cons c l ih =>
    intro r h
    rw [newChars] at h
    obtain ⟨ch, hc, h⟩ := Res.bind_eq_ok.1 h
    obtain ⟨r', hr, h⟩ := Res.bind_eq_ok.1 h
    cases h
    intro n hn
    rcases List.mem_cons.1 hn with rfl | hn
    · exact H.char _ _ _ _ _ hs hm hc
    · exact ih r' hr n hn

theorem ClosedIx.literal (H : ClosedIx be S G W Q) {k : Nat} {st : TState F} (hs : S st) {m : Bool} (hm : G m) (l : List Ch) :
    AllRes (Q k) (literalChars be x st m l) := by
  induction l with
  | nil => exact allRes_nil
  | cons c l ih =>
    intro r h
    rw [literalChars] at h
    obtain ⟨ch, hc, h⟩ := Res.bind_eq_ok.1 h
    obtain ⟨r', hr, h⟩ := Res.bind_eq_ok.1 h
    cases h
    intro n hn
    rcases List.mem_cons.1 hn with rfl | hn
    · exact H.symbol hs hm hc
    · exact ih r' hr n hn

theorem ClosedIx.func (H : ClosedIx be S G W Q) {k : Nat} {st : TState F} (hs : S st) {t : GoString} {m : Bool} (hm : G m) {n : TNode F}
    (h : handleFunction be t st m = .ok n) : Q k n := by
  unfold handleFunction at h
  obtain ⟨r, hr, h⟩ := Res.bind_eq_ok.1 h
  cases h
  exact H.hlist _ _ (H.chars (H.font _ _ hs) hm _ r hr)

omit [GoFloat F] in
theorem allRes_two {args : List Node} {rs : List (Res (List (TNode F)))} {n : TNode F}
    {f : List (TNode F) → List (TNode F) → Res (TNode F)} {e : Panic} (h : ∀ r ∈ rs, AllRes P r)
    (hok : (match args, rs with
      | .arg .. :: .arg .. :: _, r1 :: r2 :: _ => r1 >>= fun a => r2 >>= fun b => f a b
      | _, _ => .panic e) = .ok n) : ∃ a b, (∀ n ∈ a, P n) ∧ (∀ n ∈ b, P n) ∧ f a b = .ok n := by
  split at hok
  · obtain ⟨a, ha, hok⟩ := Res.bind_eq_ok.1 hok
    obtain ⟨b, hb, hok⟩ := Res.bind_eq_ok.1 hok
    exact ⟨a, b, h _ (by simp) a ha, h _ (by simp) b hb, hok⟩
  · cases hok

theorem nests {n : Node} {l : List Node} {k : Nat} (h : barNestings (n :: l) ≤ k) : barNesting n ≤ k ∧ barNestings l ≤ k := by
  rw [barNestings] at h
  exact ⟨Nat.le_trans (Nat.le_max_left _ _) h, Nat.le_trans (Nat.le_max_right _ _) h⟩

/-- How many bars the macro adds -/
def barsOf : Hk → Nat
  | .sqrt | .overline => 1
  | _ => 0

theorem barsOf_name {name : GoString} {h : Hk} (e : handlerOf name = some h) :
    barsOf h ≤ if name = bs!"\\sqrt" ∨ name = bs!"\\overline" then 1 else 0 := by
  unfold handlerOf at e
  generalize (List.lookup name spaceWidth).isSome = b1 at e
  generalize (isSpaced name || setHas (newSet symPunctuationSymbols) name) = b2 at e
  generalize setHas (newSet symFunctionNames) (List.drop 1 name) = b3 at e
  generalize hasMacro name = b4 at e
  by_cases h1 : name = bs!"\\sqrt"
  · rw [if_pos (.inl h1)]; cases h <;> simp [barsOf]
  by_cases h2 : name = bs!"\\overline"
  · rw [if_pos (.inr h2)]; cases h <;> simp [barsOf]
  rw [if_neg (by simp [h1, h2])]
  rw [if_neg h1, if_neg h2] at e
  cases b1 <;> cases b2 <;> cases b3 <;> cases b4 <;> simp only [Bool.false_eq_true, if_true, if_false] at e
  all_goals repeat' split at e
  all_goals first | (cases e; done) | (cases e; exact Nat.le_refl 0)

theorem ClosedIx.up (H : ClosedIx be S G W Q) {j k : Nat} (h : j ≤ k) {n : TNode F} (hq : Q j n) : Q k n := by
  induction h with
  | refl => exact hq
  | step _ ih => exact H.mono _ _ ih

theorem ClosedIx.macros (H : ClosedIx be S G W Q) (hn : ∀ t v, num t = some v → W v) {st : TState F} (hs : S st) {math : Bool} (hm : G math)
    (j : Nat) (k : Hk)
    (pos : Nat) (t : GoString) (args : List Node) (rs : List (Res (List (TNode F)))) (h : ∀ r ∈ rs, AllRes (Q j) r) (n : TNode F)
    (hb : build be num x st math k pos t args rs = .ok n) : Q (j + barsOf k) n := by
  cases k <;> unfold build at hb <;> dsimp only at hb
  case space => exact H.blank hs hb
  case symbol => exact H.symbol hs hm hb
  case function => exact H.func hs hm hb
  case hspace =>
    split at hb
    · split at hb
      · rename_i v hv; exact H.space _ _ _ _ hs (hn _ _ hv) hb
      · cases hb
    · cases hb
  case frac | tfrac | dfrac =>
    obtain ⟨a, b, ga, gb, e⟩ := allRes_two h hb
    rw [hl_eq, hl_eq] at e
    exact H.frac _ _ _ _ _ _ _ _ hs (.inl rfl) ga gb e
  case binom =>
    obtain ⟨a, b, ga, gb, e⟩ := allRes_two h hb
    rw [hl_eq, hl_eq] at e
    exact H.frac _ _ _ _ _ _ _ _ hs (.inr rfl) ga gb e
  case sqrt =>
    split at hb
    · obtain ⟨a, ha, hb⟩ := Res.bind_eq_ok.1 hb
      obtain ⟨b, hb', hb⟩ := Res.bind_eq_ok.1 hb
      refine H.sqrt _ _ _ _ _ hs (fun r hr => ?_) (h _ (by simp) b hb') hb
      cases hr
      rw [hl_eq]
      exact H.hlist _ _ (h _ (by simp) a ha)
    · obtain ⟨b, hb', hb⟩ := Res.bind_eq_ok.1 hb
      exact H.sqrt _ _ _ _ _ hs (fun r hr => by cases hr) (h _ (by simp) b hb') hb
    · cases hb
  case overline =>
    split at hb
    · obtain ⟨b, hb', hb⟩ := Res.bind_eq_ok.1 hb
      exact H.over _ _ _ _ hs (h _ (by simp) b hb') hb
    · cases hb

theorem ClosedIx.sym (H : ClosedIx be S G W Q) {k : Nat} {st : TState F} (hs : S st) {math : Bool} (hm : G math) (p : Nat) (t : GoString) :
    AllRes (Q k) (visitN be num x st math (.sym p t)) := by
  rw [visitN]
  split
  · refine allRes_one fun n hn => ?_
    unfold buildSym at hn
    split at hn <;> first | (cases hn; done) | skip
    · exact H.blank hs hn
    · exact H.symbol hs hm hn
  · intro l hl
    obtain ⟨c, hc, hl⟩ := Res.bind_eq_ok.1 hl
    cases hl
    intro n hn
    rw [List.mem_singleton] at hn
    rw [hn]; exact H.char _ _ _ _ _ hs hm hc

theorem ClosedIx.word (H : ClosedIx be S G W Q) {k : Nat} {st : TState F} (hs : S st) {math : Bool} (hm : G math) (p : Nat) (t : GoString) :
    AllRes (Q k) (visitN be num x st math (.word p t)) := by
  rw [visitN]
  intro l hl
  obtain ⟨c, hc, hl⟩ := Res.bind_eq_ok.1 hl
  cases hl
  intro n hn
  rw [List.mem_singleton] at hn
  rw [hn]; exact H.hlist _ _ (H.chars hs hm _ c hc)

mutual
theorem ClosedIx.visit (H : ClosedIx be S G W Q) (hn : ∀ t v, num t = some v → W v) : ∀ (n : Node) (k : Nat) (st : TState F) (math : Bool), S st → G math → barNesting n ≤ k →
    AllRes (Q k) (visitN be num x st math n)
  | .list l, k, st, math, _, _, _ => by rw [visitN]; exact allRes_nil
  | .nil, k, st, math, _, _, _ => by rw [visitN]; exact allRes_nil
  | .sym p t, k, st, math, hs, hm, hk => H.sym hs hm p t
  | .word p t, k, st, math, hs, hm, hk => H.word hs hm p t
  | .lit p t, k, st, math, hs, hm, hk => by rw [visitN]; exact H.literal hs hm _
  | .math d a l b, k, st, math, hs, hm, hk => by rw [visitN]; exact ClosedIx.visitAll H hn l k _ true (H.font _ _ hs) H.mode (by rw [barNesting] at hk; exact hk)
  | .macro none _, _, _, _, _, _, _ => by rw [visitN]; exact allRes_panic
  | .macro (some (p, name)) args, k, st, math, hs, hm, hk => by
    rw [visitN]
    cases hh : handlerOf name with
    | none => exact allRes_panic
    | some h =>
      refine allRes_one fun n e => ?_
      refine H.up (j := barNestings args + barsOf h) ?_
        (H.macros hn hs hm (barNestings args) h p name args _ (ClosedIx.args H hn args _ st math hs hm (Nat.le_refl _)) n e)
      have := barsOf_name hh
      rw [barNesting] at hk
      by_cases hc : name = bs!"\\sqrt" ∨ name = bs!"\\overline"
      · rw [if_pos hc] at this hk; omega
      · rw [if_neg hc] at this hk; omega
  | .arg .., _, _, _, _, _, _ => by rw [visitN]; exact allRes_panic
  | .optArg .., _, _, _, _, _, _ => by rw [visitN]; exact allRes_panic
  | .ident .., _, _, _, _, _, _ => by rw [visitN]; exact allRes_panic
  | .sub .., _, _, _, _, _, _ => by rw [visitN]; exact allRes_panic
  | .sup .., _, _, _, _, _, _ => by rw [visitN]; exact allRes_panic
theorem ClosedIx.visitAll (H : ClosedIx be S G W Q) (hn : ∀ t v, num t = some v → W v) : ∀ (l : List Node) (k : Nat) (st : TState F) (math : Bool), S st → G math → barNestings l ≤ k →
    AllRes (Q k) (visitAll be num x st math l)
  | [], k, st, math, _, _, _ => by rw [Verif.visitAll]; exact allRes_nil
  | n :: l, k, st, math, hs, hm, hk => by
    rw [Verif.visitAll]
    exact allRes_append (ClosedIx.visit H hn n k st math hs hm (nests hk).1) (ClosedIx.visitAll H hn l k st math hs hm (nests hk).2)
theorem ClosedIx.walk (H : ClosedIx be S G W Q) (hn : ∀ t v, num t = some v → W v) : ∀ (n : Node) (k : Nat) (st : TState F) (math : Bool), S st → G math → barNesting n ≤ k →
    AllRes (Q k) (walkN be num x st math n)
  | .list l, k, st, math, hs, hm, hk => by rw [walkN]; exact ClosedIx.walkAll H hn l k st math hs hm (by rw [barNesting] at hk; exact hk)
  | .nil, k, st, math, _, _, _ => by rw [walkN]; exact allRes_panic
  | .sym p t, k, st, math, hs, hm, hk => by rw [walkN]; exact H.sym hs hm p t
  | .word p t, k, st, math, hs, hm, hk => by rw [walkN]; exact H.word hs hm p t
  | .lit p t, k, st, math, hs, hm, hk => by rw [walkN, visitN]; exact H.literal hs hm _
  | .math d a l b, k, st, math, hs, hm, hk => by rw [walkN]; exact ClosedIx.visitAll H hn l k _ true (H.font _ _ hs) H.mode (by rw [barNesting] at hk; exact hk)
  | .macro none _, _, _, _, _, _, _ => by rw [walkN, visitN]; exact allRes_panic
  | .macro (some (p, name)) args, k, st, math, hs, hm, hk => by
    rw [walkN, visitN]
    cases hh : handlerOf name with
    | none => exact allRes_panic
    | some h =>
      refine allRes_one fun n e => ?_
      refine H.up (j := barNestings args + barsOf h) ?_
        (H.macros hn hs hm (barNestings args) h p name args _ (ClosedIx.args H hn args _ st math hs hm (Nat.le_refl _)) n e)
      have := barsOf_name hh
      rw [barNesting] at hk
      by_cases hc : name = bs!"\\sqrt" ∨ name = bs!"\\overline"
      · rw [if_pos hc] at this hk; omega
      · rw [if_neg hc] at this hk; omega
  | .arg .., _, _, _, _, _, _ => by rw [walkN]; exact allRes_panic
  | .optArg .., _, _, _, _, _, _ => by rw [walkN]; exact allRes_panic
  | .ident .., _, _, _, _, _, _ => by rw [walkN]; exact allRes_panic
  | .sub .., _, _, _, _, _, _ => by rw [walkN]; exact allRes_panic
  | .sup .., _, _, _, _, _, _ => by rw [walkN]; exact allRes_panic
theorem ClosedIx.walkAll (H : ClosedIx be S G W Q) (hn : ∀ t v, num t = some v → W v) : ∀ (l : List Node) (k : Nat) (st : TState F) (math : Bool), S st → G math → barNestings l ≤ k →
    AllRes (Q k) (walkAll be num x st math l)
  | [], k, st, math, _, _, _ => by rw [Verif.walkAll]; exact allRes_nil
  | n :: l, k, st, math, hs, hm, hk => by
    rw [Verif.walkAll]
    exact allRes_append (ClosedIx.walk H hn n k st math hs hm (nests hk).1) (ClosedIx.walkAll H hn l k st math hs hm (nests hk).2)
theorem ClosedIx.args (H : ClosedIx be S G W Q) (hn : ∀ t v, num t = some v → W v) : ∀ (l : List Node) (k : Nat) (st : TState F) (math : Bool), S st → G math → barNestings l ≤ k →
    ∀ r ∈ walkArgs be num x st math l, AllRes (Q k) r
  | [], k, st, math, _, _, _ => by rw [walkArgs]; intro r hr; cases hr
  | n :: as, k, st, math, hs, hm, hk => by
    rw [walkArgs]
    intro r hr
    rcases List.mem_cons.1 hr with rfl | hr
    · exact ClosedIx.arg H hn n k st math hs hm (nests hk).1
    · exact ClosedIx.args H hn as k st math hs hm (nests hk).2 r hr
theorem ClosedIx.arg (H : ClosedIx be S G W Q) (hn : ∀ t v, num t = some v → W v) : ∀ (n : Node) (k : Nat) (st : TState F) (math : Bool), S st → G math → barNesting n ≤ k →
    AllRes (Q k) (walkArg be num x st math n)
  | .arg _ l _, k, st, math, hs, hm, hk => by rw [walkArg]; exact ClosedIx.walkAll H hn l k st math hs hm (by rw [barNesting] at hk; exact hk)
  | .optArg _ l _, k, st, math, hs, hm, hk => by rw [walkArg]; exact ClosedIx.walkAll H hn l k st math hs hm (by rw [barNesting] at hk; exact hk)
  | .nil, _, _, _, _, _, _ => by simp only [walkArg]; exact allRes_panic
  | .list _, _, _, _, _, _, _ => by simp only [walkArg]; exact allRes_panic
  | .macro _ _, _, _, _, _, _, _ => by simp only [walkArg]; exact allRes_panic
  | .ident _ _, _, _, _, _, _, _ => by simp only [walkArg]; exact allRes_panic
  | .math _ _ _ _, _, _, _, _, _, _ => by simp only [walkArg]; exact allRes_panic
  | .word _ _, _, _, _, _, _, _ => by simp only [walkArg]; exact allRes_panic
  | .lit _ _, _, _, _, _, _, _ => by simp only [walkArg]; exact allRes_panic
  | .sym _ _, _, _, _, _, _, _ => by simp only [walkArg]; exact allRes_panic
  | .sub _ _, _, _, _, _, _, _ => by simp only [walkArg]; exact allRes_panic
  | .sup _ _, _, _, _, _, _, _ => by simp only [walkArg]; exact allRes_panic
end

end

/-- The property holds of the nodes of which `mtexParse` makes its list: if it allows text mode, or if there
are only formulas. -/
theorem ClosedIx.parse {be : Backend F} {S : TState F → Prop} {G : Bool → Prop} {W : F → Prop} {Q : Nat → TNode F → Prop}
    {num : GoString → Option F} {x : GoString} (H : ClosedIx be S G W Q) (hn : ∀ t v, num t = some v → W v) {U : Nat → Bool} {size dpi : F}
    (hs : S (initState size dpi)) {r : LHead F × List (TNode F)} (h : mtexParse U be num x size dpi = .ok r) {root : Node}
    (hp : parseExpr U x = .ok root) (hG : G false ∨ OnlyMath root) :
    ∃ l, (∀ n ∈ l, Q (barNesting root) n) ∧ r = hbody be l := by
  rw [mtexParse, hp, Res.ok_bind] at h
  obtain ⟨l, hl, h⟩ := Res.bind_eq_ok.1 h
  cases h
  rw [collect_eq] at hl
  refine ⟨l, ?_, rfl⟩
  rcases hG with hG | hM
  · exact H.walk hn root _ _ false hs hG (Nat.le_refl _) l hl
  · cases root <;> simp only [OnlyMath] at hM
    rename_i ns
    rw [walkN] at hl
    rw [barNesting]
    have key : ∀ (ns : List Node) (k : Nat), (∀ n ∈ ns, ∃ d a m b, n = .math d a m b) → barNestings ns ≤ k →
        AllRes (Q k) (Verif.walkAll be num x (initState size dpi) false ns) := by
      intro ns k
      induction ns with
      | nil => intro _ _; rw [Verif.walkAll]; exact allRes_nil
      | cons n ns ih =>
        intro hM hk
        obtain ⟨d, a, m, b, rfl⟩ := hM n (by simp)
        rw [Verif.walkAll]
        refine allRes_append ?_ (ih (fun n hn => hM n (by simp [hn])) (nests hk).2)
        rw [walkN]
        refine H.visitAll hn m k _ true (H.font _ _ hs) H.mode ?_
        have := (nests hk).1
        rw [barNesting] at this; exact this
    exact key ns _ hM (Nat.le_refl _) l hl

/-- The property holds of the nodes of which `mtexParse` makes its list. -/
theorem Closed.parse {be : Backend F} {S : TState F → Prop} {W : F → Prop} {P : TNode F → Prop} {num : GoString → Option F}
    {x : GoString} (H : Closed be S W P) (hn : ∀ t v, num t = some v → W v) {U : Nat → Bool} {size dpi : F}
    (hs : S (initState size dpi)) {r : LHead F × List (TNode F)} (h : mtexParse U be num x size dpi = .ok r) :
    ∃ l, (∀ n ∈ l, P n) ∧ r = hbody be l := by
  have h' := h
  rw [mtexParse] at h'
  obtain ⟨root, hp, -⟩ := Res.bind_eq_ok.1 h'
  exact H.toIx.parse hn hs h hp (.inl trivial)

end Verif
