import Verif.Lemmas.Drawable
/-! # When the visitor of mtex succeeds, for a backend that may know more or less than expected

`Lemmas/Drawable.lean` for a backend whose knowledge of symbols is bounded by `K` from one side, or
from both, for the questions that are asked. -/

namespace Verif
variable {F : Type} [GoFloat F]
open GoFloat Spec

/-- If `P`, then the call returns when `b`; if `Q`, then only when `b`. -/
def Judge (P Q : Prop) {α : Type} (r : Res α) (b : Bool) : Prop :=
  (P → b = true → ∃ a, r = .ok a) ∧ (Q → ∀ a, r = .ok a → b = true)

section
variable {P Q : Prop}
theorem judge_ok {α : Type} (a : α) : Judge P Q (.ok a) true := ⟨fun _ _ => ⟨a, rfl⟩, fun _ _ _ => rfl⟩
theorem judge_panic {α : Type} (p : Panic) : Judge P Q (.panic p : Res α) false :=
  ⟨(fun _ h => nomatch h), (fun _ _ h => nomatch h)⟩

theorem judge_bind {α β : Type} {r : Res α} {f : α → Res β} {b c : Bool} (h : Judge P Q r b)
    (hf : ∀ a, Judge P Q (f a) c) : Judge P Q (r >>= f) (b && c) := by
  constructor
  · intro hp hb
    rw [Bool.and_eq_true] at hb
    obtain ⟨a, ha⟩ := h.1 hp hb.1
    rw [ha]
    exact (hf a).1 hp hb.2
  · intro hq y hy
    obtain ⟨a, ha, hy⟩ := Res.bind_eq_ok.1 hy
    rw [Bool.and_eq_true]
    exact ⟨h.2 hq a ha, (hf a).2 hq y hy⟩

theorem judge_map {α β : Type} {r : Res α} {f : α → β} {b : Bool} (h : Judge P Q r b) :
    Judge P Q (r >>= fun a => .ok (f a)) b := by
  simpa using judge_bind h (fun a => judge_ok (f a))

theorem judge_true_bind {α β : Type} {r : Res α} {f : α → Res β} {c : Bool} (h : Judge P Q r true)
    (hf : ∀ a, Judge P Q (f a) c) : Judge P Q (r >>= f) c := by simpa using judge_bind h hf

theorem judge_bind_true {α β : Type} {r : Res α} {f : α → Res β} {b : Bool} (h : Judge P Q r b)
    (hf : ∀ a, Judge P Q (f a) true) : Judge P Q (r >>= f) b := by simpa using judge_bind h hf

theorem Outcome.judge {α : Type} {r : Res α} {b : Bool} (h : Outcome r b) : Judge P Q r b := by
  cases b
  · obtain ⟨p, rfl⟩ := h; exact judge_panic p
  · obtain ⟨a, rfl⟩ := h; exact judge_ok a
end

/-- The symbols asked for at other sizes than that of the text, or in other fonts. -/
def auxSyms : List GoString := [bs!"m", bs!"(", bs!")", bs!"\\__sqrt__"]

/-- The questions mtex asks: about any symbol at the size of the text, and about the auxiliary
symbols in math mode. -/
def Asked (B D : F) (c : GoString) (f : Font F) (d : F) (m : Bool) : Prop :=
  d = D ∧ (f.name = bs!"default" ∧ f.size = B ∨ m = true ∧ c ∈ auxSyms)

/-- The state is that of the text, up to the type of the font. -/
structure TextSt (B D : F) (st : TState F) : Prop where
  name : st.font.name = bs!"default"
  size : st.font.size = B
  dpi : st.dpi = D

theorem TextSt.withType {B D : F} {st : TState F} (h : TextSt B D st) (t : GoString) : TextSt B D (st.withType t) := ⟨h.1, h.2, h.3⟩

/-- What the backend knows, of what it is asked, is what `K` says: at least, if `P`; at most, if `Q`. -/
structure Knows (be : Backend F) (K : GoString → GoString → Bool → Bool) (X : GoString → Bool) (B D : F) (P Q : Prop) : Prop where
  least : P → ∀ c f d m, Asked B D c f d m → K c f.typ m = true → be.known c f d m = true
  most : Q → ∀ c f d m, Asked B D c f d m → be.known c f d m = true → K c f.typ m = true
  xleast : P → ∀ c f d, X f.typ = true → K c f.typ true = true → be.xheight f d ≠ none
  xmost : Q → ∀ f d, d = D → be.xheight f d ≠ none → X f.typ = true

section
variable {be : Backend F} {num : GoString → Option F} {x : GoString} {K : GoString → GoString → Bool → Bool} {X : GoString → Bool}
  {B D : F} {P Q : Prop}

theorem newChar_judge' (hK : Knows be K X B D P Q) (c : GoString) (st : TState F) (m : Bool) (h : Asked B D c st.font st.dpi m) :
    Judge P Q (newChar be c st m) (K c st.font.typ m) := by
  unfold newChar
  constructor
  · intro hp hb
    rw [hK.least hp c _ _ m h hb]
    exact ⟨_, rfl⟩
  · intro hq a ha
    split at ha
    · next hk => exact hK.most hq c _ _ m h hk
    · cases ha

theorem newChar_judge (hK : Knows be K X B D P Q) (c : GoString) (st : TState F) (hst : TextSt B D st) (m : Bool) :
    Judge P Q (newChar be c st m) (K c st.font.typ m) := newChar_judge' hK c st m ⟨hst.3, .inl ⟨hst.1, hst.2⟩⟩

theorem makeSpace_judge (hK : Knows be K X B D P Q) (hm : K bs!"m" bs!"it" true = true)
    (st : TState F) (hst : TextSt B D st) (w : F) : Judge P Q (makeSpace be st w) true := by
  unfold makeSpace
  dsimp only
  constructor
  · intro hp _
    rw [hK.least hp bs!"m" _ _ true ⟨hst.3, .inr ⟨rfl, by decide⟩⟩ hm]
    exact ⟨_, rfl⟩
  · intro _ _ _; rfl

theorem handleSymbol_judge (hK : Knows be K X B D P Q) (hm : K bs!"m" bs!"it" true = true)
    (pos : Nat) (t : GoString) (st : TState F) (hst : TextSt B D st) (m : Bool) :
    Judge P Q (handleSymbol be x pos t st m) (K t st.font.typ m && !isPunct t) := by
  unfold handleSymbol
  refine judge_bind (newChar_judge hK t st hst m) fun ch => ?_
  have sp := fun w => makeSpace_judge (be := be) hK hm st hst w
  split
  · rename_i h
    rw [isPunct_spaced h]
    dsimp only
    split
    · exact judge_ok _
    · exact judge_true_bind (sp _) fun _ => judge_true_bind (sp _) fun _ => judge_ok _
  · rw [has_newSet]
    split
    · rename_i hp
      split
      · rename_i hd
        subst hd
        rw [show isPunct bs!"." = false by decide +kernel]
        split
        · exact judge_ok _
        · exact judge_true_bind (sp _) fun _ => judge_ok _
      · rename_i hd
        rw [show isPunct t = true by simp only [isPunct, hp, Bool.true_and]; simpa using hd]
        exact judge_panic _
    · rename_i hp
      rw [show isPunct t = false by unfold isPunct; rw [Bool.eq_false_iff.2 hp]; rfl]
      exact judge_ok _

theorem handleSpace_judge (hK : Knows be K X B D P Q) (hm : K bs!"m" bs!"it" true = true)
    (name : GoString) (st : TState F) (hst : TextSt B D st) (h : blankNames.contains name = true) : Judge P Q (handleSpace be name st) true := by
  unfold handleSpace
  rw [← spaceWidth_names, ← lookup_contains] at h
  obtain ⟨w, hw⟩ := Option.isSome_iff_exists.1 h
  rw [hw]
  exact makeSpace_judge hK hm st hst _

theorem space_judge (hK : Knows be K X B D P Q) (hm : K bs!"m" bs!"it" true = true)
    (name : GoString) (st : TState F) (hst : TextSt B D st) (hk : handlerOf name = some .space) : Judge P Q (handleSpace be name st) true :=
  handleSpace_judge hK hm name st hst (blank_of_handler hk)

theorem newChars_judge (hK : Knows be K X B D P Q) (st : TState F) (hst : TextSt B D st) (m : Bool) (l : List Ch) :
    Judge P Q (newChars be st m l) ((l.map runeStr).all fun c => K c st.font.typ m) := by
  induction l with
  | nil => exact judge_ok _
  | cons c l ih =>
    rw [newChars, List.map_cons, List.all_cons]
    exact judge_bind (newChar_judge hK _ st hst m) fun _ => judge_map ih

theorem literalChars_judge (hK : Knows be K X B D P Q) (hm : K bs!"m" bs!"it" true = true)
    (st : TState F) (hst : TextSt B D st) (m : Bool) (l : List Ch) :
    Judge P Q (literalChars be x st m l) ((l.map runeStr).all fun c => K c st.font.typ m && !isPunct c) := by
  induction l with
  | nil => exact judge_ok _
  | cons c l ih =>
    rw [literalChars, List.map_cons, List.all_cons]
    exact judge_bind (handleSymbol_judge hK hm _ _ st hst m) fun _ => judge_map ih

theorem handleFunction_judge (hK : Knows be K X B D P Q) (name : GoString) (st : TState F) (hst : TextSt B D st) (m : Bool) :
    Judge P Q (handleFunction be name st m) ((chars (name.drop 1)).all fun c => K c bs!"rm" m) := by
  unfold handleFunction
  exact judge_map (newChars_judge hK (st.withType bs!"rm") (hst.withType _) m _)

theorem vpack_judge (hd : LHead F) (cs : List (TNode F)) (h : F) (add : Bool) (m : F)
    (hc : ∀ n ∈ cs, isGlyph n = false) : Judge P Q (vpack hd cs h add m) true :=
  (vpack_outcome hd cs h add m hc).judge

theorem autoHeightChar_judge (hK : Knows be K X B D P Q) (c : GoString) (hc : c ∈ auxSyms) (h d : F) (st : TState F)
    (hst : TextSt B D st) (k : F) : Judge P Q (autoHeightChar be c h d st k) (fits K X c st.font.typ) := by
  suffices hb : Judge P Q (autoHeightBody be c h d st k) (K c st.font.typ true) by
    unfold fits
    constructor
    · intro hp hf
      rw [Bool.and_eq_true] at hf
      rw [autoHeightChar_eq (hK.xleast hp c _ _ hf.1 hf.2)]
      exact hb.1 hp hf.2
    · intro hq a ha
      rw [Bool.and_eq_true]
      refine ⟨hK.xmost hq _ _ hst.3 fun e => ?_, hb.2 hq a (autoHeightChar_ok ha)⟩
      unfold autoHeightChar at ha
      rw [e] at ha
      cases ha
  unfold autoHeightBody
  have h1 := newChar_judge (be := be) hK c st hst true
  rw [← Bool.and_self (K c st.font.typ true)]
  refine judge_bind h1 fun ch => ?_
  dsimp only
  rw [if_pos (by rw [hst.1]; decide)]
  exact judge_map (newChar_judge' hK c
    { st with font := { st.font with size := st.font.size * if eq k zero then (h + d) / (ch.height + ch.depth) else k } } true
    ⟨hst.3, .inr ⟨rfl, hc⟩⟩)

theorem ruled_judge (st : TState F) (body : TNode F) (hb : isGlyph body = false) (h d : F) :
    Judge P Q (ruled be st body h d) true := (ruled_outcome st body hb h d).judge

theorem genfrac_judge (hK : Knows be K X B D P Q) (he : K bs!"=" bs!"it" true = true)
    (delims : Bool) (rule : F) (display : Bool) (a b : TNode F) (st : TState F) (hst : TextSt B D st) :
    Judge P Q (genfrac be delims rule display a b st)
      (!delims || fits K X bs!"(" st.font.typ && fits K X bs!")" st.font.typ) := by
  unfold genfrac
  dsimp only
  refine judge_true_bind (vpack_judge _ _ _ _ _ ?_) fun hd => ?_
  · intro n hn
    simp only [List.mem_cons, List.not_mem_nil, or_false] at hn
    rcases hn with rfl | rfl | rfl | rfl | rfl <;> rfl
  · have heq : ∀ r : Res (TNode F), ∀ b, Judge P Q r b → Judge P Q (if be.known bs!"=" (st.withType mathDefault).font st.dpi true then r
        else .panic (.other "Metrics")) b := by
      intro r b hr
      constructor
      · intro hp hb
        rw [hK.least hp bs!"=" (st.withType mathDefault).font st.dpi true ⟨hst.3, .inl ⟨hst.1, hst.2⟩⟩ he, if_pos rfl]
        exact hr.1 hp hb
      · intro hq a ha
        split at ha
        · exact hr.2 hq a ha
        · cases ha
    refine heq _ _ ?_
    cases delims
    · exact judge_ok _
    · simp only [if_true, Bool.not_true, Bool.false_or]
      unfold autoSizedDelimiter
      dsimp only
      exact judge_bind (autoHeightChar_judge hK _ (by decide) _ _ _ hst _) fun _ => judge_map (autoHeightChar_judge hK _ (by decide) _ _ _ hst _)

theorem buildSqrt_judge (hK : Knows be K X B D P Q) (root : Option (TNode F)) (hd : LHead F)
    (cs : List (TNode F)) (st : TState F) (hst : TextSt B D st) :
    Judge P Q (buildSqrt be root hd cs st) (fits K X bs!"\\__sqrt__" st.font.typ) := by
  unfold buildSqrt
  dsimp only
  rw [← Bool.and_true (fits ..)]
  refine judge_bind (autoHeightChar_judge hK _ (by decide) _ _ _ hst _) fun check => ?_
  refine judge_true_bind (ruled_judge st _ rfl _ _) fun rhs => ?_
  refine judge_true_bind (vpack_judge _ _ _ _ _ ?_) fun hd => judge_ok _
  intro n hn
  simp only [List.mem_cons, List.not_mem_nil, or_false] at hn
  subst hn; rfl

theorem buildOverline_judge (hd : LHead F) (cs : List (TNode F)) (st : TState F) :
    Judge P Q (buildOverline be hd cs st) true := by
  unfold buildOverline
  dsimp only
  exact judge_map (ruled_judge st _ rfl _ _)

/-- What `build` gives, when the arguments have the judges `os`. -/
theorem build_judge (hK : Knows be K X B D P Q) (hm : K bs!"m" bs!"it" true = true)
    (he : K bs!"=" bs!"it" true = true) (st : TState F) (hst : TextSt B D st) (math : Bool) (k : Hk) (pos : Nat) (name : GoString)
    (hk : handlerOf name = some k) (args : List Node) (rs : List (Res (List (TNode F)))) (os : List Bool)
    (h : List.Forall₂ (Judge P Q) rs os) :
    Judge P Q (build be num x st math k pos name args rs)
      (drawableMacro K X num st.font.typ math name args os (role name)) := by
  have hr := role_handler name
  rw [hk] at hr
  rw [hr]
  cases k <;> simp only [roleOfHandler, Hk.role, build, drawableMacro]
  case space => exact space_judge hK hm name st hst hk
  case symbol => exact handleSymbol_judge hK hm pos name st hst math
  case function => exact handleFunction_judge hK name st hst math
  case hspace =>
    rcases args with _ | ⟨a1, as⟩
    · exact judge_panic _
    cases a1 <;> try exact judge_panic _
    rename_i l _
    rcases l with _ | ⟨n1, l⟩
    · exact judge_panic _
    cases n1 <;> try exact judge_panic _
    rename_i t
    dsimp only
    cases num t
    · exact judge_panic _
    · exact makeSpace_judge hK hm st hst _
  case sqrt =>
    have two : ∀ as : List Node, ∀ a1 a2, args = a1 :: a2 :: as → as ≠ [] →
        Judge P Q (build be num x st math .sqrt pos name args rs) (drawableMacro K X num st.font.typ math name args os .root) := by
      rintro (_ | ⟨a3, as⟩) a1 a2 rfl hne
      · exact absurd rfl hne
      · cases a1 <;> cases a2 <;> exact judge_panic _
    rcases args with _ | ⟨a1, _ | ⟨a2, as⟩⟩
    · exact judge_panic _
    · rcases h with _ | ⟨h1, h2⟩
      · cases a1 <;> exact judge_panic _
      · cases a1 <;> try exact judge_panic _
        exact judge_bind h1 fun _ => buildSqrt_judge hK _ _ _ _ hst
    · rcases as with _ | ⟨a3, as⟩
      · rcases h with _ | ⟨h1, _ | ⟨h2, h3⟩⟩
        · cases a1 <;> cases a2 <;> exact judge_panic _
        · cases a1 <;> cases a2 <;> exact judge_panic _
        · cases a1 <;> cases a2 <;> try exact judge_panic _
          dsimp only
          rw [Bool.and_assoc]
          exact judge_bind h1 fun _ => judge_bind h2 fun _ => buildSqrt_judge hK _ _ _ _ hst
      · exact two (a3 :: as) a1 a2 rfl (by simp)
  case overline =>
    rcases args with _ | ⟨a1, as⟩
    · exact judge_panic _
    rcases h with _ | ⟨h1, h2⟩
    · cases a1 <;> exact judge_panic _
    · cases a1 <;> try exact judge_panic _
      exact judge_bind_true h1 fun _ => buildOverline_judge _ _ _
  all_goals
    rcases args with _ | ⟨a1, _ | ⟨a2, as⟩⟩
    · exact judge_panic _
    · cases a1 <;> exact judge_panic _
    rcases h with _ | ⟨h1, _ | ⟨h2, h3⟩⟩
    · cases a1 <;> cases a2 <;> exact judge_panic _
    · cases a1 <;> cases a2 <;> exact judge_panic _
    · cases a1 <;> cases a2 <;> try exact judge_panic _
      first
      | exact judge_bind h1 fun _ => judge_bind_true h2 fun _ => genfrac_judge hK he false _ _ _ _ _ hst
      | (dsimp only
         simp only [Bool.and_assoc]
         exact judge_bind h1 fun _ => judge_bind h2 fun _ => genfrac_judge hK he true _ _ _ _ _ hst)

mutual
/-- The visitor succeeds exactly on drawable trees. -/
theorem visit_judge (hK : Knows be K X B D P Q) (hm : K bs!"m" bs!"it" true = true)
    (he : K bs!"=" bs!"it" true = true) : ∀ (n : Node) (st : TState F) (math : Bool), TextSt B D st →
      Judge P Q (visitN be num x st math n) (drawable K X num st.font.typ math true n)
  | .list l, st, math, hst => by simp only [visitN, drawable, Bool.true_or]; exact judge_ok _
  | .nil, st, math, hst => by simp only [visitN, drawable]; exact judge_ok _
  | .sym p t, st, math, hst => by
    simp only [visitN, drawable]
    cases math
    · exact judge_map (newChar_judge hK t st hst false)
    · simp only [if_true]
      refine judge_map ?_
      have hr := role_handler t
      cases hk : handlerOf t with
      | none => rw [hr, hk]; exact judge_panic _
      | some k =>
        rw [hr, hk]
        cases k
        case space => exact space_judge hK hm t st hst hk
        case symbol => 
          have e : (roleOfHandler (some Hk.symbol) == Role.blank || roleOfHandler (some Hk.symbol) == Role.glyph &&
            K t st.font.typ true && !isPunct t) = (K t st.font.typ true && !isPunct t) := by
            simp [roleOfHandler, Hk.role]
          rw [e]
          exact handleSymbol_judge hK hm p t st hst true
        all_goals exact judge_panic _
  | .word p t, st, math, hst => by simp only [visitN, drawable]; exact judge_map (newChars_judge hK st hst math _)
  | .lit p t, st, math, hst => by simp only [visitN, drawable]; exact literalChars_judge hK hm st hst math _
  | .math d a l b, st, math, hst => by
    simp only [visitN, drawable]; exact visitAll_judge hK hm he l (st.withType mathDefault) true (hst.withType _)
  | .macro none _, _, _, _ => by simp only [visitN, drawable]; exact judge_panic _
  | .macro (some (p, name)) args, st, math, hst => by
    simp only [visitN, drawable]
    cases hk : handlerOf name with
    | none => rw [role_handler, hk]; exact judge_panic _
    | some k => exact judge_map (build_judge hK hm he st hst math k p name hk args _ _ (walkArgs_judge hK hm he args st math hst))
  | .arg .., _, _, _ => by simp only [visitN, drawable]; exact judge_panic _
  | .optArg .., _, _, _ => by simp only [visitN, drawable]; exact judge_panic _
  | .ident .., _, _, _ => by simp only [visitN, drawable]; exact judge_panic _
  | .sub .., _, _, _ => by simp only [visitN, drawable]; exact judge_panic _
  | .sup .., _, _, _ => by simp only [visitN, drawable]; exact judge_panic _
theorem visitAll_judge (hK : Knows be K X B D P Q) (hm : K bs!"m" bs!"it" true = true)
    (he : K bs!"=" bs!"it" true = true) : ∀ (l : List Node) (st : TState F) (math : Bool), TextSt B D st →
      Judge P Q (visitAll be num x st math l) (drawableAll K X num st.font.typ math true l)
  | [], st, math, hst => by simp only [visitAll, drawableAll]; exact judge_ok _
  | n :: l, st, math, hst => by
    simp only [visitAll, drawableAll]
    exact judge_bind (visit_judge hK hm he n st math hst) fun _ => judge_map (visitAll_judge hK hm he l st math hst)
theorem walk_judge (hK : Knows be K X B D P Q) (hm : K bs!"m" bs!"it" true = true)
    (he : K bs!"=" bs!"it" true = true) : ∀ (n : Node) (st : TState F) (math : Bool), TextSt B D st →
      Judge P Q (walkN be num x st math n) (drawable K X num st.font.typ math false n)
  | .list l, st, math, hst => by
    simp only [walkN, drawable, Bool.false_or]; exact walkAll_judge hK hm he l st math hst
  | .nil, st, math, hst => by simp only [walkN, drawable]; exact judge_panic _
  | .sym p t, st, math, hst => by rw [walkN]; exact visit_judge hK hm he (.sym p t) st math hst
  | .word p t, st, math, hst => by rw [walkN]; exact visit_judge hK hm he (.word p t) st math hst
  | .lit p t, st, math, hst => by rw [walkN]; exact visit_judge hK hm he (.lit p t) st math hst
  | .math d a l b, st, math, hst => by
    simp only [walkN, drawable]; exact visitAll_judge hK hm he l (st.withType mathDefault) true (hst.withType _)
  | .macro none _, _, _, _ => by simp only [walkN, visitN, drawable]; exact judge_panic _
  | .macro (some (p, name)) args, st, math, hst => by
    simp only [walkN, visitN, drawable]
    cases hk : handlerOf name with
    | none => rw [role_handler, hk]; exact judge_panic _
    | some k => exact judge_map (build_judge hK hm he st hst math k p name hk args _ _ (walkArgs_judge hK hm he args st math hst))
  | .arg .., _, _, _ => by simp only [walkN, drawable]; exact judge_panic _
  | .optArg .., _, _, _ => by simp only [walkN, drawable]; exact judge_panic _
  | .ident .., _, _, _ => by simp only [walkN, drawable]; exact judge_panic _
  | .sub .., _, _, _ => by simp only [walkN, drawable]; exact judge_panic _
  | .sup .., _, _, _ => by simp only [walkN, drawable]; exact judge_panic _
theorem walkAll_judge (hK : Knows be K X B D P Q) (hm : K bs!"m" bs!"it" true = true)
    (he : K bs!"=" bs!"it" true = true) : ∀ (l : List Node) (st : TState F) (math : Bool), TextSt B D st →
      Judge P Q (walkAll be num x st math l) (drawableAll K X num st.font.typ math false l)
  | [], st, math, hst => by simp only [walkAll, drawableAll]; exact judge_ok _
  | n :: l, st, math, hst => by
    simp only [walkAll, drawableAll]
    exact judge_bind (walk_judge hK hm he n st math hst) fun _ => judge_map (walkAll_judge hK hm he l st math hst)
theorem walkArgs_judge (hK : Knows be K X B D P Q) (hm : K bs!"m" bs!"it" true = true)
    (he : K bs!"=" bs!"it" true = true) : ∀ (l : List Node) (st : TState F) (math : Bool), TextSt B D st →
      List.Forall₂ (Judge P Q) (walkArgs be num x st math l) (drawableArgs K X num st.font.typ math l)
  | [], st, math, hst => by simp only [walkArgs, drawableArgs]; exact .nil
  | .arg _ l _ :: as, st, math, hst => by
    simp only [walkArgs, drawableArgs, walkArg]
    exact .cons (walkAll_judge hK hm he l st math hst) (walkArgs_judge hK hm he as st math hst)
  | .optArg _ l _ :: as, st, math, hst => by
    simp only [walkArgs, drawableArgs, walkArg]
    exact .cons (walkAll_judge hK hm he l st math hst) (walkArgs_judge hK hm he as st math hst)
  | .nil :: as, st, math, hst => by
    simp only [walkArgs, drawableArgs, walkArg]; exact .cons (judge_panic _) (walkArgs_judge hK hm he as st math hst)
  | .list _ :: as, st, math, hst => by
    simp only [walkArgs, drawableArgs, walkArg]; exact .cons (judge_panic _) (walkArgs_judge hK hm he as st math hst)
  | .macro _ _ :: as, st, math, hst => by
    simp only [walkArgs, drawableArgs, walkArg]; exact .cons (judge_panic _) (walkArgs_judge hK hm he as st math hst)
  | .ident _ _ :: as, st, math, hst => by
    simp only [walkArgs, drawableArgs, walkArg]; exact .cons (judge_panic _) (walkArgs_judge hK hm he as st math hst)
  | .math _ _ _ _ :: as, st, math, hst => by
    simp only [walkArgs, drawableArgs, walkArg]; exact .cons (judge_panic _) (walkArgs_judge hK hm he as st math hst)
  | .word _ _ :: as, st, math, hst => by
    simp only [walkArgs, drawableArgs, walkArg]; exact .cons (judge_panic _) (walkArgs_judge hK hm he as st math hst)
  | .lit _ _ :: as, st, math, hst => by
    simp only [walkArgs, drawableArgs, walkArg]; exact .cons (judge_panic _) (walkArgs_judge hK hm he as st math hst)
  | .sym _ _ :: as, st, math, hst => by
    simp only [walkArgs, drawableArgs, walkArg]; exact .cons (judge_panic _) (walkArgs_judge hK hm he as st math hst)
  | .sub _ _ :: as, st, math, hst => by
    simp only [walkArgs, drawableArgs, walkArg]; exact .cons (judge_panic _) (walkArgs_judge hK hm he as st math hst)
  | .sup _ _ :: as, st, math, hst => by
    simp only [walkArgs, drawableArgs, walkArg]; exact .cons (judge_panic _) (walkArgs_judge hK hm he as st math hst)
end

end
end Verif
