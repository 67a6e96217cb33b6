import Verif.Lemmas.Mtex
import Verif.Lemmas.Roles
import Verif.Lemmas.Box
/-! # When the visitor of mtex succeeds -/

namespace Verif
variable {F : Type} [GoFloat F]
open GoFloat Spec

/-- The call returns if `b`, panics otherwise. -/
def Outcome {α : Type} (r : Res α) (b : Bool) : Prop := if b then ∃ a, r = .ok a else ∃ p, r = .panic p

theorem outcome_ok {α : Type} (a : α) : Outcome (.ok a) true := ⟨a, rfl⟩
theorem outcome_panic {α : Type} (p : Panic) : Outcome (.panic p : Res α) false := ⟨p, rfl⟩

theorem outcome_bind {α β : Type} {r : Res α} {f : α → Res β} {b c : Bool} (h : Outcome r b)
    (hf : ∀ a, Outcome (f a) c) : Outcome (r >>= f) (b && c) := by
  cases b
  · obtain ⟨p, rfl⟩ := h; exact ⟨p, rfl⟩
  · obtain ⟨a, rfl⟩ := h; simpa using hf a

theorem outcome_map {α β : Type} {r : Res α} {f : α → β} {b : Bool} (h : Outcome r b) :
    Outcome (r >>= fun a => .ok (f a)) b := by
  simpa using outcome_bind h (fun a => outcome_ok (f a))

theorem outcome_true_bind {α β : Type} {r : Res α} {f : α → Res β} {c : Bool} (h : Outcome r true)
    (hf : ∀ a, Outcome (f a) c) : Outcome (r >>= f) c := by simpa using outcome_bind h hf

theorem outcome_bind_true {α β : Type} {r : Res α} {f : α → Res β} {b : Bool} (h : Outcome r b)
    (hf : ∀ a, Outcome (f a) true) : Outcome (r >>= f) b := by simpa using outcome_bind h hf

section
variable {be : Backend F} {num : GoString → Option F} {x : GoString} {K : GoString → GoString → Bool → Bool} {X : GoString → Bool}

theorem newChar_outcome (hK : ∀ c f d m, be.known c f d m = K c f.typ m) (c : GoString) (st : TState F) (m : Bool) :
    Outcome (newChar be c st m) (K c st.font.typ m) := by
  unfold newChar
  rw [hK]
  cases K c st.font.typ m
  · exact outcome_panic _
  · exact outcome_ok _

theorem makeSpace_outcome (hK : ∀ c f d m, be.known c f d m = K c f.typ m) (hm : K bs!"m" bs!"it" true = true)
    (st : TState F) (w : F) : Outcome (makeSpace be st w) true := by
  unfold makeSpace
  simp only [hK, mathDefault, hm, if_true]
  exact outcome_ok _

theorem handleSymbol_outcome (hK : ∀ c f d m, be.known c f d m = K c f.typ m) (hm : K bs!"m" bs!"it" true = true)
    (pos : Nat) (t : GoString) (st : TState F) (m : Bool) :
    Outcome (handleSymbol be x pos t st m) (K t st.font.typ m && !isPunct t) := by
  unfold handleSymbol
  refine outcome_bind (newChar_outcome hK t st m) fun ch => ?_
  have sp := fun w => makeSpace_outcome (be := be) hK hm st w
  split
  · rename_i h
    rw [isPunct_spaced h]
    dsimp only
    split
    · exact outcome_ok _
    · exact outcome_true_bind (sp _) fun _ => outcome_true_bind (sp _) fun _ => outcome_ok _
  · rw [has_newSet]
    split
    · rename_i hp
      split
      · rename_i hd
        subst hd
        rw [show isPunct bs!"." = false by decide +kernel]
        split
        · exact outcome_ok _
        · exact outcome_true_bind (sp _) fun _ => outcome_ok _
      · rename_i hd
        rw [show isPunct t = true by simp only [isPunct, hp, Bool.true_and]; simpa using hd]
        exact outcome_panic _
    · rename_i hp
      rw [show isPunct t = false by unfold isPunct; rw [Bool.eq_false_iff.2 hp]; rfl]
      exact outcome_ok _

theorem handleSpace_outcome (hK : ∀ c f d m, be.known c f d m = K c f.typ m) (hm : K bs!"m" bs!"it" true = true)
    (name : GoString) (st : TState F) (h : blankNames.contains name = true) : Outcome (handleSpace be name st) true := by
  unfold handleSpace
  rw [← spaceWidth_names, ← lookup_contains] at h
  obtain ⟨w, hw⟩ := Option.isSome_iff_exists.1 h
  rw [hw]
  exact makeSpace_outcome hK hm st _

theorem blank_of_handler {name : GoString} (hk : handlerOf name = some .space) : blankNames.contains name = true := by
  unfold handlerOf at hk
  rw [lookup_contains, spaceWidth_names] at hk
  cases hb : blankNames.contains name
  · rw [hb] at hk
    simp only [Bool.false_eq_true, if_false] at hk
    repeat (split at hk <;> first | (simp at hk; done) | skip)
  · rfl

theorem space_outcome (hK : ∀ c f d m, be.known c f d m = K c f.typ m) (hm : K bs!"m" bs!"it" true = true)
    (name : GoString) (st : TState F) (hk : handlerOf name = some .space) : Outcome (handleSpace be name st) true :=
  handleSpace_outcome hK hm name st (blank_of_handler hk)

theorem runeStr_chars (t : GoString) : chars t = (decode t).map runeStr := rfl

theorem newChars_outcome (hK : ∀ c f d m, be.known c f d m = K c f.typ m) (st : TState F) (m : Bool) (l : List Ch) :
    Outcome (newChars be st m l) ((l.map runeStr).all fun c => K c st.font.typ m) := by
  induction l with
  | nil => exact outcome_ok _
  | cons c l ih =>
    rw [newChars, List.map_cons, List.all_cons]
    exact outcome_bind (newChar_outcome hK _ st m) fun _ => outcome_map ih

theorem literalChars_outcome (hK : ∀ c f d m, be.known c f d m = K c f.typ m) (hm : K bs!"m" bs!"it" true = true)
    (st : TState F) (m : Bool) (l : List Ch) :
    Outcome (literalChars be x st m l) ((l.map runeStr).all fun c => K c st.font.typ m && !isPunct c) := by
  induction l with
  | nil => exact outcome_ok _
  | cons c l ih =>
    rw [literalChars, List.map_cons, List.all_cons]
    exact outcome_bind (handleSymbol_outcome hK hm _ _ st m) fun _ => outcome_map ih

theorem handleFunction_outcome (hK : ∀ c f d m, be.known c f d m = K c f.typ m) (name : GoString) (st : TState F) (m : Bool) :
    Outcome (handleFunction be name st m) ((chars (name.drop 1)).all fun c => K c bs!"rm" m) := by
  unfold handleFunction
  exact outcome_map (newChars_outcome hK (st.withType bs!"rm") m _)

theorem vpack_outcome (hd : LHead F) (cs : List (TNode F)) (h : F) (add : Bool) (m : F)
    (hc : ∀ n ∈ cs, isGlyph n = false) : Outcome (vpack hd cs h add m) true :=
  ⟨_, vpack_eq hd cs h add m hc⟩

theorem autoHeightChar_outcome (hK : ∀ c f d m, be.known c f d m = K c f.typ m) (hX : ∀ f d, (be.xheight f d).isSome = X f.typ) (c : GoString) (h d : F) (st : TState F)
    (k : F) : Outcome (autoHeightChar be c h d st k) (fits K X c st.font.typ) := by
  unfold fits
  rw [← hX st.font st.dpi]
  unfold autoHeightChar
  cases be.xheight st.font st.dpi with
  | none => exact outcome_panic _
  | some q =>
  rw [Option.isSome_some, Bool.true_and]
  dsimp only
  unfold autoHeightBody
  have h1 := newChar_outcome (be := be) hK c st true
  cases hk : K c st.font.typ true <;> rw [hk] at h1
  · obtain ⟨p, hp⟩ := h1; rw [hp]; exact outcome_panic _
  · refine outcome_true_bind h1 fun ch => ?_
    dsimp only
    split
    · have h2 := newChar_outcome (be := be) hK c
        { st with font := { st.font with size := st.font.size * if eq k zero then (h + d) / (ch.height + ch.depth) else k } } true
      simp only [hk] at h2
      exact outcome_map h2
    · exact outcome_ok _

theorem ruled_outcome (st : TState F) (body : TNode F) (hb : isGlyph body = false) (h d : F) :
    Outcome (ruled be st body h d) true := by
  unfold ruled
  refine outcome_true_bind ⟨_, rfl⟩ fun g => ?_
  have hc : ∀ n ∈ [hrule be st (ofInt (-1)), .glue g, body], isGlyph n = false := by
    intro n hn
    simp only [List.mem_cons, List.not_mem_nil, or_false] at hn
    rcases hn with rfl | rfl | rfl
    · rfl
    · rfl
    · exact hb
  refine outcome_true_bind (vpack_outcome _ _ _ _ _ hc) fun _ => ?_
  exact outcome_map (vpack_outcome _ _ _ _ _ hc)

theorem genfrac_outcome (hK : ∀ c f d m, be.known c f d m = K c f.typ m) (hX : ∀ f d, (be.xheight f d).isSome = X f.typ) (he : K bs!"=" bs!"it" true = true)
    (delims : Bool) (rule : F) (display : Bool) (a b : TNode F) (st : TState F) :
    Outcome (genfrac be delims rule display a b st)
      (!delims || fits K X bs!"(" st.font.typ && fits K X bs!")" st.font.typ) := by
  unfold genfrac
  dsimp only
  refine outcome_true_bind (vpack_outcome _ _ _ _ _ ?_) fun hd => ?_
  · intro n hn
    simp only [List.mem_cons, List.not_mem_nil, or_false] at hn
    rcases hn with rfl | rfl | rfl | rfl | rfl <;> rfl
  · rw [hK, show (st.withType mathDefault).font.typ = bs!"it" from rfl, he, if_pos rfl]
    cases delims
    · exact outcome_ok _
    · simp only [if_true, Bool.not_true, Bool.false_or]
      unfold autoSizedDelimiter
      dsimp only
      exact outcome_bind (autoHeightChar_outcome hK hX _ _ _ _ _) fun _ => outcome_map (autoHeightChar_outcome hK hX _ _ _ _ _)

theorem buildSqrt_outcome (hK : ∀ c f d m, be.known c f d m = K c f.typ m) (hX : ∀ f d, (be.xheight f d).isSome = X f.typ) (root : Option (TNode F)) (hd : LHead F)
    (cs : List (TNode F)) (st : TState F) :
    Outcome (buildSqrt be root hd cs st) (fits K X bs!"\\__sqrt__" st.font.typ) := by
  unfold buildSqrt
  dsimp only
  rw [← Bool.and_true (fits ..)]
  refine outcome_bind (autoHeightChar_outcome hK hX _ _ _ _ _) fun check => ?_
  refine outcome_true_bind (ruled_outcome st _ rfl _ _) fun rhs => ?_
  refine outcome_true_bind (vpack_outcome _ _ _ _ _ ?_) fun hd => outcome_ok _
  intro n hn
  simp only [List.mem_cons, List.not_mem_nil, or_false] at hn
  subst hn; rfl

theorem buildOverline_outcome (hd : LHead F) (cs : List (TNode F)) (st : TState F) :
    Outcome (buildOverline be hd cs st) true := by
  unfold buildOverline
  dsimp only
  exact outcome_map (ruled_outcome st _ rfl _ _)

/-- What `build` gives, when the arguments have the outcomes `os`. -/
theorem build_outcome (hK : ∀ c f d m, be.known c f d m = K c f.typ m) (hX : ∀ f d, (be.xheight f d).isSome = X f.typ) (hm : K bs!"m" bs!"it" true = true)
    (he : K bs!"=" bs!"it" true = true) (st : TState F) (math : Bool) (k : Hk) (pos : Nat) (name : GoString)
    (hk : handlerOf name = some k) (args : List Node) (rs : List (Res (List (TNode F)))) (os : List Bool)
    (h : List.Forall₂ Outcome rs os) :
    Outcome (build be num x st math k pos name args rs)
      (drawableMacro K X num st.font.typ math name args os (role name)) := by
  have hr := role_handler name
  rw [hk] at hr
  rw [hr]
  cases k <;> simp only [roleOfHandler, Hk.role, build, drawableMacro]
  case space => exact space_outcome hK hm name st hk
  case symbol => exact handleSymbol_outcome hK hm pos name st math
  case function => exact handleFunction_outcome hK name st math
  case hspace =>
    rcases args with _ | ⟨a1, as⟩
    · exact outcome_panic _
    cases a1 <;> try exact outcome_panic _
    rename_i l _
    rcases l with _ | ⟨n1, l⟩
    · exact outcome_panic _
    cases n1 <;> try exact outcome_panic _
    rename_i t
    dsimp only
    cases num t
    · exact outcome_panic _
    · exact makeSpace_outcome hK hm st _
  case sqrt =>
    have two : ∀ as : List Node, ∀ a1 a2, args = a1 :: a2 :: as → as ≠ [] →
        Outcome (build be num x st math .sqrt pos name args rs) (drawableMacro K X num st.font.typ math name args os .root) := by
      rintro (_ | ⟨a3, as⟩) a1 a2 rfl hne
      · exact absurd rfl hne
      · cases a1 <;> cases a2 <;> exact outcome_panic _
    rcases args with _ | ⟨a1, _ | ⟨a2, as⟩⟩
    · exact outcome_panic _
    · rcases h with _ | ⟨h1, h2⟩
      · cases a1 <;> exact outcome_panic _
      · cases a1 <;> try exact outcome_panic _
        exact outcome_bind h1 fun _ => buildSqrt_outcome hK hX _ _ _ _
    · rcases as with _ | ⟨a3, as⟩
      · rcases h with _ | ⟨h1, _ | ⟨h2, h3⟩⟩
        · cases a1 <;> cases a2 <;> exact outcome_panic _
        · cases a1 <;> cases a2 <;> exact outcome_panic _
        · cases a1 <;> cases a2 <;> try exact outcome_panic _
          dsimp only
          rw [Bool.and_assoc]
          exact outcome_bind h1 fun _ => outcome_bind h2 fun _ => buildSqrt_outcome hK hX _ _ _ _
      · exact two (a3 :: as) a1 a2 rfl (by simp)
  case overline =>
    rcases args with _ | ⟨a1, as⟩
    · exact outcome_panic _
    rcases h with _ | ⟨h1, h2⟩
    · cases a1 <;> exact outcome_panic _
    · cases a1 <;> try exact outcome_panic _
      exact outcome_bind_true h1 fun _ => buildOverline_outcome _ _ _
  all_goals
    rcases args with _ | ⟨a1, _ | ⟨a2, as⟩⟩
    · exact outcome_panic _
    · cases a1 <;> exact outcome_panic _
    rcases h with _ | ⟨h1, _ | ⟨h2, h3⟩⟩
    · cases a1 <;> cases a2 <;> exact outcome_panic _
    · cases a1 <;> cases a2 <;> exact outcome_panic _
    · cases a1 <;> cases a2 <;> try exact outcome_panic _
      first
      | exact outcome_bind h1 fun _ => outcome_bind_true h2 fun _ => genfrac_outcome hK hX he false _ _ _ _ _
      | (dsimp only
         simp only [Bool.and_assoc]
         exact outcome_bind h1 fun _ => outcome_bind h2 fun _ => genfrac_outcome hK hX he true _ _ _ _ _)

mutual
/-- The visitor succeeds exactly on drawable trees. -/
theorem visit_outcome (hK : ∀ c f d m, be.known c f d m = K c f.typ m) (hX : ∀ f d, (be.xheight f d).isSome = X f.typ) (hm : K bs!"m" bs!"it" true = true)
    (he : K bs!"=" bs!"it" true = true) : ∀ (n : Node) (st : TState F) (math : Bool),
      Outcome (visitN be num x st math n) (drawable K X num st.font.typ math true n)
  | .list l, st, math => by simp only [visitN, drawable, Bool.true_or]; exact outcome_ok _
  | .nil, st, math => by simp only [visitN, drawable]; exact outcome_ok _
  | .sym p t, st, math => by
    simp only [visitN, drawable]
    cases math
    · exact outcome_map (newChar_outcome hK t st false)
    · simp only [if_true]
      refine outcome_map ?_
      have hr := role_handler t
      cases hk : handlerOf t with
      | none => rw [hr, hk]; exact outcome_panic _
      | some k =>
        rw [hr, hk]
        cases k
        case space => exact space_outcome hK hm t st hk
        case symbol => 
          have e : (roleOfHandler (some Hk.symbol) == Role.blank || roleOfHandler (some Hk.symbol) == Role.glyph &&
            K t st.font.typ true && !isPunct t) = (K t st.font.typ true && !isPunct t) := by
            simp [roleOfHandler, Hk.role]
          rw [e]
          exact handleSymbol_outcome hK hm p t st true
        all_goals exact outcome_panic _
  | .word p t, st, math => by simp only [visitN, drawable]; exact outcome_map (newChars_outcome hK st math _)
  | .lit p t, st, math => by simp only [visitN, drawable]; exact literalChars_outcome hK hm st math _
  | .math d a l b, st, math => by
    simp only [visitN, drawable]; exact visitAll_outcome hK hX hm he l (st.withType mathDefault) true
  | .macro none _, _, _ => by simp only [visitN, drawable]; exact outcome_panic _
  | .macro (some (p, name)) args, st, math => by
    simp only [visitN, drawable]
    cases hk : handlerOf name with
    | none => rw [role_handler, hk]; exact outcome_panic _
    | some k => exact outcome_map (build_outcome hK hX hm he st math k p name hk args _ _ (walkArgs_outcome hK hX hm he args st math))
  | .arg .., _, _ => by simp only [visitN, drawable]; exact outcome_panic _
  | .optArg .., _, _ => by simp only [visitN, drawable]; exact outcome_panic _
  | .ident .., _, _ => by simp only [visitN, drawable]; exact outcome_panic _
  | .sub .., _, _ => by simp only [visitN, drawable]; exact outcome_panic _
  | .sup .., _, _ => by simp only [visitN, drawable]; exact outcome_panic _
theorem visitAll_outcome (hK : ∀ c f d m, be.known c f d m = K c f.typ m) (hX : ∀ f d, (be.xheight f d).isSome = X f.typ) (hm : K bs!"m" bs!"it" true = true)
    (he : K bs!"=" bs!"it" true = true) : ∀ (l : List Node) (st : TState F) (math : Bool),
      Outcome (visitAll be num x st math l) (drawableAll K X num st.font.typ math true l)
  | [], st, math => by simp only [visitAll, drawableAll]; exact outcome_ok _
  | n :: l, st, math => by
    simp only [visitAll, drawableAll]
    exact outcome_bind (visit_outcome hK hX hm he n st math) fun _ => outcome_map (visitAll_outcome hK hX hm he l st math)
theorem walk_outcome (hK : ∀ c f d m, be.known c f d m = K c f.typ m) (hX : ∀ f d, (be.xheight f d).isSome = X f.typ) (hm : K bs!"m" bs!"it" true = true)
    (he : K bs!"=" bs!"it" true = true) : ∀ (n : Node) (st : TState F) (math : Bool),
      Outcome (walkN be num x st math n) (drawable K X num st.font.typ math false n)
  | .list l, st, math => by
    simp only [walkN, drawable, Bool.false_or]; exact walkAll_outcome hK hX hm he l st math
  | .nil, st, math => by simp only [walkN, drawable]; exact outcome_panic _
  | .sym p t, st, math => by rw [walkN]; exact visit_outcome hK hX hm he (.sym p t) st math
  | .word p t, st, math => by rw [walkN]; exact visit_outcome hK hX hm he (.word p t) st math
  | .lit p t, st, math => by rw [walkN]; exact visit_outcome hK hX hm he (.lit p t) st math
  | .math d a l b, st, math => by
    simp only [walkN, drawable]; exact visitAll_outcome hK hX hm he l (st.withType mathDefault) true
  | .macro none _, _, _ => by simp only [walkN, visitN, drawable]; exact outcome_panic _
  | .macro (some (p, name)) args, st, math => by
    simp only [walkN, visitN, drawable]
    cases hk : handlerOf name with
    | none => rw [role_handler, hk]; exact outcome_panic _
    | some k => exact outcome_map (build_outcome hK hX hm he st math k p name hk args _ _ (walkArgs_outcome hK hX hm he args st math))
  | .arg .., _, _ => by simp only [walkN, drawable]; exact outcome_panic _
  | .optArg .., _, _ => by simp only [walkN, drawable]; exact outcome_panic _
  | .ident .., _, _ => by simp only [walkN, drawable]; exact outcome_panic _
  | .sub .., _, _ => by simp only [walkN, drawable]; exact outcome_panic _
  | .sup .., _, _ => by simp only [walkN, drawable]; exact outcome_panic _
theorem walkAll_outcome (hK : ∀ c f d m, be.known c f d m = K c f.typ m) (hX : ∀ f d, (be.xheight f d).isSome = X f.typ) (hm : K bs!"m" bs!"it" true = true)
    (he : K bs!"=" bs!"it" true = true) : ∀ (l : List Node) (st : TState F) (math : Bool),
      Outcome (walkAll be num x st math l) (drawableAll K X num st.font.typ math false l)
  | [], st, math => by simp only [walkAll, drawableAll]; exact outcome_ok _
  | n :: l, st, math => by
    simp only [walkAll, drawableAll]
    exact outcome_bind (walk_outcome hK hX hm he n st math) fun _ => outcome_map (walkAll_outcome hK hX hm he l st math)
theorem walkArgs_outcome (hK : ∀ c f d m, be.known c f d m = K c f.typ m) (hX : ∀ f d, (be.xheight f d).isSome = X f.typ) (hm : K bs!"m" bs!"it" true = true)
    (he : K bs!"=" bs!"it" true = true) : ∀ (l : List Node) (st : TState F) (math : Bool),
      List.Forall₂ Outcome (walkArgs be num x st math l) (drawableArgs K X num st.font.typ math l)
  | [], st, math => by simp only [walkArgs, drawableArgs]; exact .nil
  | .arg _ l _ :: as, st, math => by
    simp only [walkArgs, drawableArgs, walkArg]
    exact .cons (walkAll_outcome hK hX hm he l st math) (walkArgs_outcome hK hX hm he as st math)
  | .optArg _ l _ :: as, st, math => by
    simp only [walkArgs, drawableArgs, walkArg]
    exact .cons (walkAll_outcome hK hX hm he l st math) (walkArgs_outcome hK hX hm he as st math)
  | .nil :: as, st, math => by
    simp only [walkArgs, drawableArgs, walkArg]; exact .cons (outcome_panic _) (walkArgs_outcome hK hX hm he as st math)
  | .list _ :: as, st, math => by
    simp only [walkArgs, drawableArgs, walkArg]; exact .cons (outcome_panic _) (walkArgs_outcome hK hX hm he as st math)
  | .macro _ _ :: as, st, math => by
    simp only [walkArgs, drawableArgs, walkArg]; exact .cons (outcome_panic _) (walkArgs_outcome hK hX hm he as st math)
  | .ident _ _ :: as, st, math => by
    simp only [walkArgs, drawableArgs, walkArg]; exact .cons (outcome_panic _) (walkArgs_outcome hK hX hm he as st math)
  | .math _ _ _ _ :: as, st, math => by
    simp only [walkArgs, drawableArgs, walkArg]; exact .cons (outcome_panic _) (walkArgs_outcome hK hX hm he as st math)
  | .word _ _ :: as, st, math => by
    simp only [walkArgs, drawableArgs, walkArg]; exact .cons (outcome_panic _) (walkArgs_outcome hK hX hm he as st math)
  | .lit _ _ :: as, st, math => by
    simp only [walkArgs, drawableArgs, walkArg]; exact .cons (outcome_panic _) (walkArgs_outcome hK hX hm he as st math)
  | .sym _ _ :: as, st, math => by
    simp only [walkArgs, drawableArgs, walkArg]; exact .cons (outcome_panic _) (walkArgs_outcome hK hX hm he as st math)
  | .sub _ _ :: as, st, math => by
    simp only [walkArgs, drawableArgs, walkArg]; exact .cons (outcome_panic _) (walkArgs_outcome hK hX hm he as st math)
  | .sup _ _ :: as, st, math => by
    simp only [walkArgs, drawableArgs, walkArg]; exact .cons (outcome_panic _) (walkArgs_outcome hK hX hm he as st math)
end

end
end Verif
