import Verif.Lemmas.AcrossBuilt
import Verif.Lemmas.Built
/-! # What documents that do not go back are made of -/

namespace Verif
open GoFloat Spec XR

/-- `P` holds of what the constructions of mtex make of boxes for which it holds, if blanks are not negative and
radicals have no index.  See `Closed`. -/
structure ClosedFw (be : Backend XR) (S : TState XR → Prop) (G : Bool → Prop) (W : XR → Prop) (P : TNode XR → Prop) : Prop where
  mode : G true
  font : ∀ st t, S st → S (st.withType t)
  const : ∀ (a : Int) (b : Nat), 0 ≤ a → W (ofRat a b)
  char : ∀ c st m ch, S st → G m → newChar be c st m = .ok ch → P (.char ch)
  space : ∀ st w n, S st → W w → makeSpace be st w = .ok n → P n
  hlist : ∀ l, (∀ n ∈ l, P n) → P (hlistOf be l true)
  frac : ∀ dl rule ds a b st n, S st → (rule = be.underline st.font st.dpi ∨ rule = zero) → (∀ n ∈ a, P n) → (∀ n ∈ b, P n) →
    genfrac be dl rule ds (hlistOf be a true) (hlistOf be b true) st = .ok n → P n
  sqrt : ∀ b st n, S st → (∀ n ∈ b, P n) → buildSqrt be none (hbody be b).1 (hbody be b).2 st = .ok n → P n
  over : ∀ b st n, S st → (∀ n ∈ b, P n) → buildOverline be (hbody be b).1 (hbody be b).2 st = .ok n → P n

section
variable {be : Backend XR} {S : TState XR → Prop} {G : Bool → Prop} {W : XR → Prop} {P : TNode XR → Prop} {num : GoString → Option XR} {x : GoString}

theorem ClosedFw.symbol (H : ClosedFw be S G W P) {st : TState XR} (hs : S st) {pos : Nat} {t : GoString} {m : Bool} (hm : G m) {n : TNode XR}
    (h : handleSymbol be x pos t st m = .ok n) : P n := by
  unfold handleSymbol at h
  obtain ⟨ch, hc, h⟩ := Res.bind_eq_ok.1 h
  have g := H.char _ _ _ _ hs hm hc
  have two : W (ofRat 2 10) := H.const 2 10 (by decide)
  split at h
  · dsimp only at h
    split at h
    · simp only [Res.ok.injEq] at h; subst h; exact g
    · obtain ⟨k1, e1, h⟩ := Res.bind_eq_ok.1 h
      obtain ⟨k2, e2, h⟩ := Res.bind_eq_ok.1 h
      simp only [Res.ok.injEq] at h; subst h
      exact H.hlist _ (mem3 (H.space _ _ _ hs two e1) g (H.space _ _ _ hs two e2))
  · split at h
    · split at h
      · split at h
        · simp only [Res.ok.injEq] at h; subst h; exact g
        · obtain ⟨k1, e1, h⟩ := Res.bind_eq_ok.1 h
          simp only [Res.ok.injEq] at h; subst h
          exact H.hlist _ (mem2 g (H.space _ _ _ hs two e1))
      · cases h
    · simp only [Res.ok.injEq] at h; subst h; exact g

theorem ClosedFw.chars (H : ClosedFw be S G W P) {st : TState XR} (hs : S st) {m : Bool} (hm : G m) (l : List Ch) :
    AllRes P (newChars be st m l) := by
  induction l with
  | nil => exact allRes_nil
  | cons c l ih =>
    intro r h
    rw [newChars] at h
    obtain ⟨ch, hc, h⟩ := Res.bind_eq_ok.1 h
    obtain ⟨r', hr, h⟩ := Res.bind_eq_ok.1 h
    cases h
    intro n hn
    rcases List.mem_cons.1 hn with rfl | hn
    · exact H.char _ _ _ _ hs hm hc
    · exact ih r' hr n hn

theorem ClosedFw.literal (H : ClosedFw be S G W P) {st : TState XR} (hs : S st) {m : Bool} (hm : G m) (l : List Ch) :
    AllRes P (literalChars be x st m l) := by
  induction l with
  | nil => exact allRes_nil
  | cons c l ih =>
    intro r h
    rw [literalChars] at h
    obtain ⟨ch, hc, h⟩ := Res.bind_eq_ok.1 h
    obtain ⟨r', hr, h⟩ := Res.bind_eq_ok.1 h
    cases h
    intro n hn
    rcases List.mem_cons.1 hn with rfl | hn
    · exact H.symbol hs hm hc
    · exact ih r' hr n hn

theorem ClosedFw.func (H : ClosedFw be S G W P) {st : TState XR} (hs : S st) {t : GoString} {m : Bool} (hm : G m) {n : TNode XR}
    (h : handleFunction be t st m = .ok n) : P n := by
  unfold handleFunction at h
  obtain ⟨r, hr, h⟩ := Res.bind_eq_ok.1 h
  cases h
  exact H.hlist _ (H.chars (H.font _ _ hs) hm _ r hr)

theorem lookup_nonneg {t : GoString} {q : Int × Nat} (ht : t ≠ bs!"\\!") (h : spaceWidth.lookup t = some q) : 0 ≤ q.1 := by
  have key : ∀ l : List (GoString × (Int × Nat)), (∀ p ∈ l, p.1 ≠ bs!"\\!" → 0 ≤ p.2.1) → l.lookup t = some q → 0 ≤ q.1 := by
    intro l
    induction l with
    | nil => intro _ h; cases h
    | cons p l ih =>
      obtain ⟨a, b⟩ := p
      intro hl h
      rw [List.lookup_cons] at h
      split at h
      · rename_i he
        cases h
        have : t = a := by simpa using he
        exact hl (a, q) (by simp) (by rw [← this]; exact ht)
      · exact ih (fun p hp => hl p (by simp [hp])) h
  exact key _ (by decide) h

theorem ClosedFw.blank (H : ClosedFw be S G W P) {st : TState XR} (hs : S st) {t : GoString} (ht : t ≠ bs!"\\!") {n : TNode XR}
    (h : handleSpace be t st = .ok n) : P n := by
  unfold handleSpace at h
  split at h
  · rename_i q hq
    exact H.space _ _ _ hs (H.const _ _ (lookup_nonneg ht hq)) h
  · cases h

theorem handler_hspace {name : GoString} (e : handlerOf name = some .hspace) : name = bs!"\\hspace" := by
  unfold handlerOf at e
  generalize (List.lookup name spaceWidth).isSome = b1 at e
  generalize (isSpaced name || setHas (newSet symPunctuationSymbols) name) = b2 at e
  generalize setHas (newSet symFunctionNames) (List.drop 1 name) = b3 at e
  generalize hasMacro name = b4 at e
  by_contra hc
  rw [if_neg hc] at e
  cases b1 <;> cases b2 <;> cases b3 <;> cases b4 <;> simp only [Bool.false_eq_true, if_true, if_false] at e
  all_goals repeat' split at e
  all_goals cases e

theorem handler_sqrt {name : GoString} (e : handlerOf name = some .sqrt) : name = bs!"\\sqrt" := by
  unfold handlerOf at e
  generalize (List.lookup name spaceWidth).isSome = b1 at e
  generalize (isSpaced name || setHas (newSet symPunctuationSymbols) name) = b2 at e
  generalize setHas (newSet symFunctionNames) (List.drop 1 name) = b3 at e
  generalize hasMacro name = b4 at e
  by_contra hc
  rw [if_neg hc] at e
  cases b1 <;> cases b2 <;> cases b3 <;> cases b4 <;> simp only [Bool.false_eq_true, if_true, if_false] at e
  all_goals repeat' split at e
  all_goals cases e

theorem ClosedFw.macros (H : ClosedFw be S G W P) (hn : ∀ q : ℚ, 0 ≤ q → W (.fin q)) {st : TState XR} (hs : S st) {math : Bool} (hm : G math)
    (k : Hk) (pos : Nat) (t : GoString) (hk : handlerOf t = some k) (args : List Node) (hf : Forward num (.macro (some (pos, t)) args))
    (rs : List (Res (List (TNode XR)))) (h : ∀ r ∈ rs, AllRes P r) (n : TNode XR)
    (hb : build be num x st math k pos t args rs = .ok n) : P n := by
  rw [Forward] at hf
  obtain ⟨f1, f2, f3, -⟩ := hf
  cases k <;> unfold build at hb <;> dsimp only at hb
  case space => exact H.blank hs f1 hb
  case symbol => exact H.symbol hs hm hb
  case function => exact H.func hs hm hb
  case hspace =>
    split at hb
    · split at hb
      · rename_i v hv
        obtain ⟨q, rfl, h0⟩ := f3 (handler_hspace hk) _ _ _ _ _ _ _ rfl hv
        exact H.space _ _ _ hs (hn q h0) hb
      · cases hb
    · cases hb
  case frac | tfrac | dfrac =>
    obtain ⟨a, b, ga, gb, e⟩ := allRes_two h hb
    rw [hl_eq, hl_eq] at e
    exact H.frac _ _ _ _ _ _ _ hs (.inl rfl) ga gb e
  case binom =>
    obtain ⟨a, b, ga, gb, e⟩ := allRes_two h hb
    rw [hl_eq, hl_eq] at e
    exact H.frac _ _ _ _ _ _ _ hs (.inr rfl) ga gb e
  case sqrt =>
    split at hb
    · exact absurd (List.mem_cons_self ..) (f2 (handler_sqrt hk) _ _ _)
    · obtain ⟨b, hb', hb⟩ := Res.bind_eq_ok.1 hb
      exact H.sqrt _ _ _ hs (h _ (by simp) b hb') hb
    · cases hb
  case overline =>
    split at hb
    · obtain ⟨b, hb', hb⟩ := Res.bind_eq_ok.1 hb
      exact H.over _ _ _ hs (h _ (by simp) b hb') hb
    · cases hb

theorem ClosedFw.sym (H : ClosedFw be S G W P) {st : TState XR} (hs : S st) {math : Bool} (hm : G math) (p : Nat) (t : GoString) (ht : t ≠ bs!"\\!") :
    AllRes P (visitN be num x st math (.sym p t)) := by
  rw [visitN]
  split
  · refine allRes_one fun n hn => ?_
    unfold buildSym at hn
    split at hn <;> first | (cases hn; done) | skip
    · exact H.blank hs ht hn
    · exact H.symbol hs hm hn
  · intro l hl
    obtain ⟨c, hc, hl⟩ := Res.bind_eq_ok.1 hl
    cases hl
    intro n hn
    rw [List.mem_singleton] at hn
    rw [hn]; exact H.char _ _ _ _ hs hm hc

theorem ClosedFw.word (H : ClosedFw be S G W P) {st : TState XR} (hs : S st) {math : Bool} (hm : G math) (p : Nat) (t : GoString) :
    AllRes P (visitN be num x st math (.word p t)) := by
  rw [visitN]
  intro l hl
  obtain ⟨c, hc, hl⟩ := Res.bind_eq_ok.1 hl
  cases hl
  intro n hn
  rw [List.mem_singleton] at hn
  rw [hn]; exact H.hlist _ (H.chars hs hm _ c hc)

mutual
theorem ClosedFw.visit (H : ClosedFw be S G W P) (hn : ∀ q : ℚ, 0 ≤ q → W (.fin q)) : ∀ (n : Node) (st : TState XR) (math : Bool), S st → G math → Forward num n →
    AllRes P (visitN be num x st math n)
  | .list l, st, math, _, _, _ => by rw [visitN]; exact allRes_nil
  | .nil, st, math, _, _, _ => by rw [visitN]; exact allRes_nil
  | .sym p t, st, math, hs, hm, hk => H.sym hs hm p t (by rw [Forward] at hk; exact hk)
  | .word p t, st, math, hs, hm, hk => H.word hs hm p t
  | .lit p t, st, math, hs, hm, hk => by rw [visitN]; exact H.literal hs hm _
  | .math d a l b, st, math, hs, hm, hk => by rw [visitN]; exact ClosedFw.visitAll H hn l _ true (H.font _ _ hs) H.mode (by rw [Forward] at hk; exact hk)
  | .macro none _, _, _, _, _, _ => by rw [visitN]; exact allRes_panic
  | .macro (some (p, name)) args, st, math, hs, hm, hk => by
    rw [visitN]
    cases hh : handlerOf name with
    | none => exact allRes_panic
    | some h =>
      refine allRes_one fun n e => ?_
      exact H.macros hn hs hm h p name hh args hk _ (ClosedFw.args H hn args st math hs hm (by rw [Forward] at hk; exact hk.2.2.2)) n e
  | .arg .., _, _, _, _, _ => by rw [visitN]; exact allRes_panic
  | .optArg .., _, _, _, _, _ => by rw [visitN]; exact allRes_panic
  | .ident .., _, _, _, _, _ => by rw [visitN]; exact allRes_panic
  | .sub .., _, _, _, _, _ => by rw [visitN]; exact allRes_panic
  | .sup .., _, _, _, _, _ => by rw [visitN]; exact allRes_panic
theorem ClosedFw.visitAll (H : ClosedFw be S G W P) (hn : ∀ q : ℚ, 0 ≤ q → W (.fin q)) : ∀ (l : List Node) (st : TState XR) (math : Bool), S st → G math → Forwards num l →
    AllRes P (visitAll be num x st math l)
  | [], st, math, _, _, _ => by rw [Verif.visitAll]; exact allRes_nil
  | n :: l, st, math, hs, hm, hk => by
    rw [Verif.visitAll]
    rw [Forwards] at hk
    exact allRes_append (ClosedFw.visit H hn n st math hs hm hk.1) (ClosedFw.visitAll H hn l st math hs hm hk.2)
theorem ClosedFw.walk (H : ClosedFw be S G W P) (hn : ∀ q : ℚ, 0 ≤ q → W (.fin q)) : ∀ (n : Node) (st : TState XR) (math : Bool), S st → G math → Forward num n →
    AllRes P (walkN be num x st math n)
  | .list l, st, math, hs, hm, hk => by rw [walkN]; exact ClosedFw.walkAll H hn l st math hs hm (by rw [Forward] at hk; exact hk)
  | .nil, st, math, _, _, _ => by rw [walkN]; exact allRes_panic
  | .sym p t, st, math, hs, hm, hk => by rw [walkN]; exact H.sym hs hm p t (by rw [Forward] at hk; exact hk)
  | .word p t, st, math, hs, hm, hk => by rw [walkN]; exact H.word hs hm p t
  | .lit p t, st, math, hs, hm, hk => by rw [walkN, visitN]; exact H.literal hs hm _
  | .math d a l b, st, math, hs, hm, hk => by rw [walkN]; exact ClosedFw.visitAll H hn l _ true (H.font _ _ hs) H.mode (by rw [Forward] at hk; exact hk)
  | .macro none _, _, _, _, _, _ => by rw [walkN, visitN]; exact allRes_panic
  | .macro (some (p, name)) args, st, math, hs, hm, hk => by
    rw [walkN, visitN]
    cases hh : handlerOf name with
    | none => exact allRes_panic
    | some h =>
      refine allRes_one fun n e => ?_
      exact H.macros hn hs hm h p name hh args hk _ (ClosedFw.args H hn args st math hs hm (by rw [Forward] at hk; exact hk.2.2.2)) n e
  | .arg .., _, _, _, _, _ => by rw [walkN]; exact allRes_panic
  | .optArg .., _, _, _, _, _ => by rw [walkN]; exact allRes_panic
  | .ident .., _, _, _, _, _ => by rw [walkN]; exact allRes_panic
  | .sub .., _, _, _, _, _ => by rw [walkN]; exact allRes_panic
  | .sup .., _, _, _, _, _ => by rw [walkN]; exact allRes_panic
theorem ClosedFw.walkAll (H : ClosedFw be S G W P) (hn : ∀ q : ℚ, 0 ≤ q → W (.fin q)) : ∀ (l : List Node) (st : TState XR) (math : Bool), S st → G math → Forwards num l →
    AllRes P (walkAll be num x st math l)
  | [], st, math, _, _, _ => by rw [Verif.walkAll]; exact allRes_nil
  | n :: l, st, math, hs, hm, hk => by
    rw [Verif.walkAll]
    rw [Forwards] at hk
    exact allRes_append (ClosedFw.walk H hn n st math hs hm hk.1) (ClosedFw.walkAll H hn l st math hs hm hk.2)
theorem ClosedFw.args (H : ClosedFw be S G W P) (hn : ∀ q : ℚ, 0 ≤ q → W (.fin q)) : ∀ (l : List Node) (st : TState XR) (math : Bool), S st → G math → Forwards num l →
    ∀ r ∈ walkArgs be num x st math l, AllRes P r
  | [], st, math, _, _, _ => by rw [walkArgs]; intro r hr; cases hr
  | n :: as, st, math, hs, hm, hk => by
    rw [walkArgs]
    rw [Forwards] at hk
    intro r hr
    rcases List.mem_cons.1 hr with rfl | hr
    · exact ClosedFw.arg H hn n st math hs hm hk.1
    · exact ClosedFw.args H hn as st math hs hm hk.2 r hr
theorem ClosedFw.arg (H : ClosedFw be S G W P) (hn : ∀ q : ℚ, 0 ≤ q → W (.fin q)) : ∀ (n : Node) (st : TState XR) (math : Bool), S st → G math → Forward num n →
    AllRes P (walkArg be num x st math n)
  | .arg _ l _, st, math, hs, hm, hk => by rw [walkArg]; exact ClosedFw.walkAll H hn l st math hs hm (by rw [Forward] at hk; exact hk)
  | .optArg _ l _, st, math, hs, hm, hk => by rw [walkArg]; exact ClosedFw.walkAll H hn l st math hs hm (by rw [Forward] at hk; exact hk)
  | .nil, _, _, _, _, _ => by simp only [walkArg]; exact allRes_panic
  | .list _, _, _, _, _, _ => by simp only [walkArg]; exact allRes_panic
  | .macro _ _, _, _, _, _, _ => by simp only [walkArg]; exact allRes_panic
  | .ident _ _, _, _, _, _, _ => by simp only [walkArg]; exact allRes_panic
  | .math _ _ _ _, _, _, _, _, _ => by simp only [walkArg]; exact allRes_panic
  | .word _ _, _, _, _, _, _ => by simp only [walkArg]; exact allRes_panic
  | .lit _ _, _, _, _, _, _ => by simp only [walkArg]; exact allRes_panic
  | .sym _ _, _, _, _, _, _ => by simp only [walkArg]; exact allRes_panic
  | .sub _ _, _, _, _, _, _ => by simp only [walkArg]; exact allRes_panic
  | .sup _ _, _, _, _, _, _ => by simp only [walkArg]; exact allRes_panic
end

/-- The property holds of the nodes of which `mtexParse` makes its list. -/
theorem ClosedFw.parse (H : ClosedFw be S G W P) (hn : ∀ q : ℚ, 0 ≤ q → W (.fin q)) {U : Nat → Bool} {size dpi : XR}
    (hs : S (initState size dpi)) {r : LHead XR × List (TNode XR)} (h : mtexParse U be num x size dpi = .ok r) {root : Node}
    (hp : parseExpr U x = .ok root) (hf : Forward num root) (hG : G false ∨ OnlyMath root) : ∃ l, (∀ n ∈ l, P n) ∧ r = hbody be l := by
  rw [mtexParse, hp, Res.ok_bind] at h
  obtain ⟨l, hl, h⟩ := Res.bind_eq_ok.1 h
  cases h
  rw [collect_eq] at hl
  refine ⟨l, ?_, rfl⟩
  rcases hG with hG | hM
  · exact H.walk hn root _ false hs hG hf l hl
  · cases root <;> simp only [OnlyMath] at hM
    rename_i ns
    rw [walkN] at hl
    rw [Forward] at hf
    have key : ∀ ns : List Node, (∀ n ∈ ns, ∃ d a m b, n = .math d a m b) → Forwards num ns →
        AllRes P (Verif.walkAll be num x (initState size dpi) false ns) := by
      intro ns
      induction ns with
      | nil => intro _ _; rw [Verif.walkAll]; exact allRes_nil
      | cons n ns ih =>
        intro hM hk
        rw [Forwards] at hk
        obtain ⟨d, a, m, b, rfl⟩ := hM n (by simp)
        rw [Verif.walkAll]
        refine allRes_append ?_ (ih (fun n hn => hM n (by simp [hn])) hk.2)
        rw [walkN]
        refine H.visitAll hn m _ true (H.font _ _ hs) H.mode ?_
        have := hk.1
        rw [Forward] at this; exact this
    exact key ns hM hf l hl

end

theorem goes_closed {be : Backend XR} {A : Advances} {G : Bool → Prop} {size dpi : ℚ} (hb : Numeric be) (hA : Advancing be A G size)
    (hs : 0 < size) (hd : 0 < dpi) (hG : G true) :
    ClosedFw be (fun st => st.font.name = bs!"default" ∧ st.font.size = .fin size ∧ st.dpi = .fin dpi) G IsNN (Goes be A G (.fin dpi) size) := by
  have hD : IsPos (.fin dpi : XR) := ⟨dpi, hd, rfl⟩
  have pos : ∀ st : TState XR, st.font.name = bs!"default" ∧ st.font.size = .fin size ∧ st.dpi = .fin dpi → PosState st :=
    fun st h => ⟨⟨size, hs, h.2.1⟩, ⟨dpi, hd, h.2.2⟩⟩
  have name : ∀ st : TState XR, st.font.name = bs!"default" ∧ st.font.size = .fin size ∧ st.dpi = .fin dpi → st.font.name ≠ [] := by
    intro st h; rw [h.1]; decide
  constructor
  · exact hG
  · exact fun st t h => h
  · intro a b h
    refine ⟨(a : ℚ) / b, ?_, rfl⟩
    have : (0 : ℚ) ≤ a := by exact_mod_cast h
    positivity
  · intro c st m ch h hm hc
    exact newChar_goes hb hA hm h.2.1 (le_of_lt hs) h.2.2 hD.num hc
  · intro st w n h hw e
    obtain ⟨w, w0, rfl⟩ := hw
    exact space_goes hA hG h.2.1 (le_of_lt hs) ⟨_, h.2.2⟩ w0 e
  · exact fun l h => hlist_goes hb hA hD.num h
  · intro dl rule ds a b st n h hr ha hbn e
    exact genfrac_goes hb hA hG h.2.1 hs h.2.2 hD (name st h) hr (hlist_goes hb hA hD.num ha) (hlist_goes hb hA hD.num hbn) e
  · intro b st n h hbn e
    exact sqrt_goes hb hA hG h.2.1 hs h.2.2 hD (name st h) hbn e
  · intro b st n h hbn e
    exact over_goes hb hA (pos st h) hD hbn e

end Verif
