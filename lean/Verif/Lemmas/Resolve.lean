import Verif.Lemmas.Judge
import Verif.Lemmas.RunWalk
import Verif.Spec.Returns
import Verif.Props.Misc
/-! # Which symbols the TrueType backend resolves -/

namespace Verif
open GoFloat Spec
variable {F H : Type} [GoFloat F]

theorem resolves_eq {c : GoString} {m : Bool} : resolves c m = true ↔ ∃ r, tex2unicodeIndex c m = .ok r := by
  unfold resolves
  split
  · next r h => simp [h]
  · next h => simp only [Bool.false_eq_true, false_iff]; rintro ⟨r, hr⟩; exact h r hr

/-- What begins with an ASCII character stands for a rune in text. -/
theorem resolves_ascii (b : Nat) (y : GoString) (h : b < 128) : resolves (b :: y) false = true := by
  refine resolves_eq.2 ⟨b, (Props.C31_text _ _).2 ⟨.inl (by omega), by omega, y, ?_⟩⟩
  rw [utf8, if_pos (by omega)]; rfl

theorem tex2uni_ascii : ∀ k ∈ tex2uni, ∀ b ∈ k.1.head?, b < 128 := by
  have h : (tex2uni.all fun k => match k.1 with | [] => true | b :: _ => decide (b < 128)) = true := by decide +kernel
  intro k hk b hb
  have := List.all_eq_true.1 h k hk
  cases hk1 : k.1 with
  | nil => rw [hk1] at hb; cases hb
  | cons a l =>
    rw [hk1] at hb this
    cases hb
    simpa using this

/-- What stands for a rune in math does so in text. -/
theorem resolves_text {c : GoString} (h : resolves c true = true) : resolves c false = true := by
  obtain ⟨r, h⟩ := resolves_eq.1 h
  rcases (Props.C31_math c r).1 h with ⟨rfl, -⟩ | ⟨b, rfl, hb, -⟩ | ⟨-, hk⟩
  · exact resolves_ascii _ _ (by omega)
  · exact resolves_ascii _ _ hb
  · cases c with
    | nil =>
      exact absurd rfl (tex2uni_nonempty _ hk)
    | cons b y =>
      refine resolves_ascii b y ?_
      by_cases hb : b = 92
      · omega
      · have : dropBackslash (b :: y) = b :: dropBackslash y := by simp [dropBackslash, hb]
        rw [this] at hk
        exact tex2uni_ascii _ hk b rfl

/-- `load` succeeds on what stands for a rune. -/
theorem load_complete {e : TtfEnv H} (he : Complete e) (c : GoString) (f : Font F) (d : F) (m : Bool)
    (ht : f.typ = bs!"rm" ∨ f.typ = bs!"it") (h : resolves c m = true) : ∃ v, e.load c f d m = .ok v := by
  obtain ⟨r, hr⟩ := resolves_eq.1 h
  have hg : ∃ q, e.getGlyph c f m = .ok q := by
    unfold TtfEnv.getGlyph
    rw [hr, Res.ok_bind]
    dsimp only
    have : ∃ h, e.fonts.get (if f.typ = bs!"it" ∧ r < 65536 ∧ e.isL r = false then bs!"rm" else f.typ) = some h := by
      apply Option.ne_none_iff_exists'.1
      split
      · exact he.rm
      · rcases ht with ht | ht <;> rw [ht]
        · exact he.rm
        · exact he.it
    obtain ⟨h, hh⟩ := this
    rw [hh]
    exact ⟨_, rfl⟩
  obtain ⟨⟨ft, rn⟩, hg⟩ := hg
  unfold TtfEnv.load
  rw [hg, Res.ok_bind]
  dsimp only
  obtain ⟨a1, h1⟩ := Option.ne_none_iff_exists'.1 (he.name ft)
  obtain ⟨a2, h2⟩ := Option.ne_none_iff_exists'.1 (he.glyphIndex ft rn)
  obtain ⟨a3, h3⟩ := Option.ne_none_iff_exists'.1 (he.glyphName ft a2)
  obtain ⟨a4, h4⟩ := Option.ne_none_iff_exists'.1 (he.glyphAdvance ft a2 (e.lib.unitsPerEm ft * 6 * 64))
  obtain ⟨a5, h5⟩ := Option.ne_none_iff_exists'.1 (he.glyphBounds ft a2 (12 * 64))
  simp only [h1, h2, h3, h4, h5, he.loadGlyph, Bool.true_eq_false, if_false]
  exact ⟨_, rfl⟩

theorem load_resolves {e : TtfEnv H} {c : GoString} {f : Font F} {d : F} {m : Bool} {v : TtfVal F H}
    (h : e.load c f d m = .ok v) : resolves c m = true := by
  unfold TtfEnv.load at h
  obtain ⟨q, hq, -⟩ := Res.bind_eq_ok.1 h
  unfold TtfEnv.getGlyph at hq
  obtain ⟨r, hr, -⟩ := Res.bind_eq_ok.1 hq
  exact resolves_eq.2 ⟨r, hr⟩

/-! ## Knowing the same is drawing the same -/

/-- The symbols set in roman inside math. -/
def romanSyms : List GoString := bs!"(" :: bs!")" :: bs!"\\__sqrt__" :: symFunctionNames.flatMap chars

theorem roman_resolves : ∀ c ∈ romanSyms, ∀ m, resolves c m = true := by
  have h : (romanSyms.all fun c => resolves c true && resolves c false) = true := by decide +kernel
  intro c hc m
  have := List.all_eq_true.1 h c hc
  rw [Bool.and_eq_true] at this
  cases m
  · exact this.2
  · exact this.1

theorem function_of_role {name : GoString} (h : role name = .function) : symFunctionNames.contains (name.drop 1) = true := by
  unfold role at h
  repeat' split at h
  all_goals first | assumption | cases h

theorem roman_function {name : GoString} (h : role name = .function) : ∀ c ∈ chars (name.drop 1), c ∈ romanSyms := by
  intro c hc
  have := function_of_role h
  rw [List.contains_iff_mem] at this
  simp only [romanSyms, List.mem_cons, List.mem_flatMap]
  exact .inr (.inr (.inr ⟨_, this, hc⟩))

/-- The two agree on what is asked. -/
structure Agree (K K' : GoString → GoString → Bool → Bool) : Prop where
  math : ∀ c, K c bs!"it" true = K' c bs!"it" true
  text : ∀ c, K c bs!"rm" false = K' c bs!"rm" false
  roman : ∀ c ∈ romanSyms, K c bs!"rm" true = K' c bs!"rm" true

/-- The type of the font goes with the mode. -/
def Moded (typ : GoString) (m : Bool) : Prop := typ = bs!"rm" ∧ m = false ∨ typ = bs!"it" ∧ m = true

section
variable {K K' : GoString → GoString → Bool → Bool} {X : GoString → Bool} {num : GoString → Option F}

theorem Agree.at (h : Agree K K') {typ : GoString} {m : Bool} (ht : Moded typ m) (c : GoString) : K c typ m = K' c typ m := by
  rcases ht with ⟨rfl, rfl⟩ | ⟨rfl, rfl⟩
  · exact h.text c
  · exact h.math c

theorem Agree.rm (h : Agree K K') {c : GoString} (hc : c ∈ romanSyms) (m : Bool) : K c bs!"rm" m = K' c bs!"rm" m := by
  cases m
  · exact h.text c
  · exact h.roman c hc

theorem Agree.aux (h : Agree K K') {typ : GoString} {m : Bool} (ht : Moded typ m) {c : GoString} (hc : c ∈ romanSyms) :
    K c typ true = K' c typ true := by
  rcases ht with ⟨rfl, rfl⟩ | ⟨rfl, rfl⟩
  · exact h.roman c hc
  · exact h.math c

theorem all_congr_mem {l : List GoString} {f g : GoString → Bool} (h : ∀ c ∈ l, f c = g c) : l.all f = l.all g := by
  induction l with
  | nil => rfl
  | cons a l ih =>
    rw [List.all_cons, List.all_cons, h a List.mem_cons_self, ih (fun c hc => h c (List.mem_cons_of_mem _ hc))]

omit [GoFloat F] in
theorem fits_known {c t : GoString} (h : fits K X c t = true) : K c t true = true := by
  unfold fits at h
  rw [Bool.and_eq_true] at h
  exact h.2

theorem drawableMacro_congr (h : Agree K K') {typ : GoString} {m : Bool} (ht : Moded typ m) (name : GoString) (args : List Node)
    (os : List Bool) : drawableMacro K X num typ m name args os (role name) = drawableMacro K' X num typ m name args os (role name) := by
  have h1 := h.aux ht (c := bs!"(") (by simp [romanSyms])
  have h2 := h.aux ht (c := bs!")") (by simp [romanSyms])
  have h3 := h.aux ht (c := bs!"\\__sqrt__") (by simp [romanSyms])
  cases hr : role name with
  | function =>
    simp only [drawableMacro]
    exact all_congr_mem fun c hc => h.rm (roman_function hr c hc) m
  | glyph => simp only [drawableMacro, h.at ht]
  | binomial => simp only [drawableMacro, fits, h1, h2]
  | root => simp only [drawableMacro, fits, h3]
  | _ => rfl

mutual
theorem drawable_congr (h : Agree K K') : ∀ (n : Node) (typ : GoString) (m direct : Bool), Moded typ m →
    drawable K X num typ m direct n = drawable K' X num typ m direct n
  | .list l, typ, m, d, ht => by simp only [drawable, drawableAll_congr h l typ m false ht]
  | .nil, _, _, _, _ => by simp only [drawable]
  | .sym p t, typ, m, d, ht => by simp only [drawable, h.at ht]
  | .word p t, typ, m, d, ht => by simp only [drawable, h.at ht]
  | .lit p t, typ, m, d, ht => by simp only [drawable, h.at ht]
  | .math _ _ l _, typ, m, d, ht => by simp only [drawable]; exact drawableAll_congr h l _ _ _ (.inr ⟨rfl, rfl⟩)
  | .macro none _, _, _, _, _ => by simp only [drawable]
  | .macro (some (p, name)) args, typ, m, d, ht => by
    simp only [drawable, drawableArgs_congr h args typ m ht, drawableMacro_congr h ht]
  | .arg .., _, _, _, _ => by simp only [drawable]
  | .optArg .., _, _, _, _ => by simp only [drawable]
  | .ident .., _, _, _, _ => by simp only [drawable]
  | .sub .., _, _, _, _ => by simp only [drawable]
  | .sup .., _, _, _, _ => by simp only [drawable]
theorem drawableAll_congr (h : Agree K K') : ∀ (l : List Node) (typ : GoString) (m direct : Bool), Moded typ m →
    drawableAll K X num typ m direct l = drawableAll K' X num typ m direct l
  | [], _, _, _, _ => by simp only [drawableAll]
  | n :: l, typ, m, d, ht => by simp only [drawableAll, drawable_congr h n typ m d ht, drawableAll_congr h l typ m d ht]
theorem drawableArgs_congr (h : Agree K K') : ∀ (l : List Node) (typ : GoString) (m : Bool), Moded typ m →
    drawableArgs K X num typ m l = drawableArgs K' X num typ m l
  | [], _, _, _ => by simp only [drawableArgs]
  | .arg _ l _ :: as, typ, m, ht => by simp only [drawableArgs, drawableAll_congr h l typ m _ ht, drawableArgs_congr h as typ m ht]
  | .optArg _ l _ :: as, typ, m, ht => by simp only [drawableArgs, drawableAll_congr h l typ m _ ht, drawableArgs_congr h as typ m ht]
  | .nil :: as, typ, m, ht => by simp only [drawableArgs, drawableArgs_congr h as typ m ht]
  | .list _ :: as, typ, m, ht => by simp only [drawableArgs, drawableArgs_congr h as typ m ht]
  | .macro _ _ :: as, typ, m, ht => by simp only [drawableArgs, drawableArgs_congr h as typ m ht]
  | .ident _ _ :: as, typ, m, ht => by simp only [drawableArgs, drawableArgs_congr h as typ m ht]
  | .math _ _ _ _ :: as, typ, m, ht => by simp only [drawableArgs, drawableArgs_congr h as typ m ht]
  | .word _ _ :: as, typ, m, ht => by simp only [drawableArgs, drawableArgs_congr h as typ m ht]
  | .lit _ _ :: as, typ, m, ht => by simp only [drawableArgs, drawableArgs_congr h as typ m ht]
  | .sym _ _ :: as, typ, m, ht => by simp only [drawableArgs, drawableArgs_congr h as typ m ht]
  | .sub _ _ :: as, typ, m, ht => by simp only [drawableArgs, drawableArgs_congr h as typ m ht]
  | .sup _ _ :: as, typ, m, ht => by simp only [drawableArgs, drawableArgs_congr h as typ m ht]
end

/-! ## What is drawn is known -/

/-- An ink of a drawable tree. -/
def InkKnown (K : GoString → GoString → Bool → Bool) (i : Ink F) : Prop :=
  (i.typ = bs!"rm" ∨ i.typ = bs!"it") ∧ (∃ m, K i.sym i.typ m = true) ∧ (i.size = none → i.sym ∈ romanSyms)

theorem InkKnown.script {i : Ink F} (h : InkKnown K i) : InkKnown K i.script := by
  obtain ⟨h1, h2, h3⟩ := h
  exact ⟨h1, h2, fun hs => h3 (by simpa [Ink.script] using hs)⟩

theorem moded_typ {typ : GoString} {m : Bool} (h : Moded typ m) : typ = bs!"rm" ∨ typ = bs!"it" := by
  rcases h with ⟨h, -⟩ | ⟨h, -⟩ <;> simp [h]

theorem inkMacro_known {typ : GoString} {m : Bool} (ht : Moded typ m) (size : F) (name : GoString) (args : List Node)
    (os : List Bool) (ks : List (List (Ink F))) (hk : List.Forall₂ (fun o k => o = true → ∀ i ∈ k, InkKnown K i) os ks) (hl : os.length = args.length)
    (h : drawableMacro K X num typ m name args os (role name) = true) : ∀ i ∈ inkMacro typ size name ks (role name), InkKnown K i := by
  have two : ∀ {a b : Bool} {os : List Bool} {ks : List (List (Ink F))},
      List.Forall₂ (fun o k => o = true → ∀ i ∈ k, InkKnown K i) (a :: b :: os) ks → a = true → b = true →
      ∀ i ∈ (ks.take 2).flatten, InkKnown K i := by
    intro a b os ks hk ha hb i hi
    cases hk with | cons h1 hk => cases hk with | cons h2 hk =>
      simp only [List.take_succ_cons, List.take_zero, List.flatten_cons, List.flatten_nil, List.append_nil, List.mem_append] at hi
      rcases hi with hi | hi
      · exact h1 ha i hi
      · exact h2 hb i hi
  cases hr : role name with
  | blank => intro i hi; cases hi
  | hspace => intro i hi; cases hi
  | unknown => intro i hi; cases hi
  | function =>
    rw [hr] at h
    simp only [drawableMacro, List.all_eq_true] at h
    intro i hi
    simp only [inkMacro, List.mem_map] at hi
    obtain ⟨c, hc, rfl⟩ := hi
    exact ⟨.inl rfl, ⟨m, h c hc⟩, fun hs => by cases hs⟩
  | glyph =>
    rw [hr] at h
    simp only [drawableMacro, Bool.and_eq_true] at h
    intro i hi
    simp only [inkMacro, List.mem_singleton] at hi
    subst hi
    exact ⟨moded_typ ht, ⟨m, h.1⟩, fun hs => by cases hs⟩
  | fraction script =>
    rw [hr] at h
    simp only [drawableMacro] at h
    split at h
    · rw [Bool.and_eq_true] at h
      have := two hk h.1 h.2
      intro i hi
      simp only [inkMacro] at hi
      split at hi
      · obtain ⟨j, hj, rfl⟩ := List.mem_map.1 hi
        exact (this j hj).script
      · exact this i hi
    · cases h
  | binomial =>
    rw [hr] at h
    simp only [drawableMacro] at h
    split at h
    · simp only [Bool.and_eq_true] at h
      have := two hk h.1.1.1 h.1.1.2
      intro i hi
      simp only [inkMacro, List.cons_append, List.mem_cons, List.mem_append, List.not_mem_nil, or_false] at hi
      rcases hi with rfl | hi | rfl
      · exact ⟨moded_typ ht, ⟨true, fits_known h.1.2⟩, fun _ => by simp [romanSyms]⟩
      · obtain ⟨j, hj, rfl⟩ := List.mem_map.1 hi
        exact (this j hj).script
      · exact ⟨moded_typ ht, ⟨true, fits_known h.2⟩, fun _ => by simp [romanSyms]⟩
    · cases h
  | root =>
    rw [hr] at h
    simp only [drawableMacro] at h
    split at h
    · simp only [Bool.and_eq_true] at h
      cases hk with | cons h1 hk => cases hk with | cons h2 hk =>
      intro i hi
      simp only [inkMacro, List.mem_append, List.mem_map, List.mem_cons] at hi
      rcases hi with ⟨j, ⟨j', hj', rfl⟩, rfl⟩ | rfl | hi
      · exact (h1 h.1.1 j' hj').script.script
      · exact ⟨moded_typ ht, ⟨true, fits_known h.2⟩, fun _ => by simp [romanSyms]⟩
      · exact h2 h.1.2 i hi
    · rw [Bool.and_eq_true] at h
      cases hk with | @cons _ k1 _ kr h1 hk =>
      cases hk with
      | nil =>
        intro i hi
        simp only [inkMacro, List.mem_cons] at hi
        rcases hi with rfl | hi
        · exact ⟨moded_typ ht, ⟨true, fits_known h.2⟩, fun _ => by simp [romanSyms]⟩
        · exact h1 h.1 i hi
      | cons h2 hk => simp at hl
    · cases h
  | overline =>
    rw [hr] at h
    simp only [drawableMacro] at h
    split at h
    · cases hk with | cons h1 hk =>
      intro i hi
      simp only [inkMacro, List.take_succ_cons, List.take_zero, List.flatten_cons, List.flatten_nil, List.append_nil] at hi
      exact h1 h i hi
    · cases h

theorem drawableArgs_length (typ : GoString) (m : Bool) : ∀ l : List Node, (drawableArgs K X num typ m l).length = l.length
  | [] => by simp [drawableArgs]
  | n :: l => by cases n <;> simp [drawableArgs, drawableArgs_length typ m l]

theorem inkKnown_chars {typ : GoString} {m : Bool} (ht : Moded typ m) (size : F) (l : List GoString)
    (h : ∀ c ∈ l, K c typ m = true) : ∀ i ∈ l.map fun c => (⟨typ, c, some size⟩ : Ink F), InkKnown K i := by
  intro i hi
  obtain ⟨c, hc, rfl⟩ := List.mem_map.1 hi
  exact ⟨moded_typ ht, ⟨m, h c hc⟩, fun hs => by cases hs⟩

mutual
theorem ink_known (size : F) : ∀ (n : Node) (typ : GoString) (m direct : Bool), Moded typ m →
    drawable K X num typ m direct n = true → ∀ i ∈ ink typ size m direct n, InkKnown K i
  | .list l, typ, m, d, ht, h => by
    simp only [drawable, Bool.or_eq_true] at h
    simp only [ink]
    cases d
    · simpa using inkAll_known size l typ m false ht (by simpa using h)
    · simp
  | .nil, _, _, _, _, _ => by simp [ink]
  | .sym p t, typ, m, d, ht, h => by
    simp only [drawable] at h
    simp only [ink]
    cases m
    · simp only [Bool.false_and, Bool.false_eq_true, if_false] at h ⊢
      exact inkKnown_chars ht size [t] (by simpa using h)
    · simp only [Bool.true_and, if_true] at h ⊢
      split
      · simp
      · next hb =>
        simp only [Bool.or_eq_true, Bool.and_eq_true, beq_iff_eq] at h
        rcases h with h | ⟨⟨-, h⟩, -⟩
        · exfalso
          apply hb
          unfold role at h
          repeat' split at h
          all_goals first | assumption | cases h
        · exact inkKnown_chars ht size [t] (by simpa using h)
  | .word p t, typ, m, d, ht, h => by
    simp only [drawable, List.all_eq_true] at h
    simp only [ink]
    exact inkKnown_chars ht size _ h
  | .lit p t, typ, m, d, ht, h => by
    simp only [drawable, List.all_eq_true, Bool.and_eq_true] at h
    simp only [ink]
    exact inkKnown_chars ht size _ fun c hc => (h c hc).1
  | .math _ _ l _, typ, m, d, ht, h => by
    simp only [drawable] at h
    simp only [ink]
    exact inkAll_known size l _ _ _ (.inr ⟨rfl, rfl⟩) h
  | .macro none _, _, _, _, _, _ => by simp [ink]
  | .macro (some (p, name)) args, typ, m, d, ht, h => by
    simp only [drawable] at h
    simp only [ink]
    exact inkMacro_known ht size name args _ _ (inkArgs_known size args typ m ht) (drawableArgs_length typ m args) h
  | .arg .., _, _, _, _, _ => by simp [ink]
  | .optArg .., _, _, _, _, _ => by simp [ink]
  | .ident .., _, _, _, _, _ => by simp [ink]
  | .sub .., _, _, _, _, _ => by simp [ink]
  | .sup .., _, _, _, _, _ => by simp [ink]
theorem inkAll_known (size : F) : ∀ (l : List Node) (typ : GoString) (m direct : Bool), Moded typ m →
    drawableAll K X num typ m direct l = true → ∀ i ∈ inkAll typ size m direct l, InkKnown K i
  | [], _, _, _, _, _ => by simp [inkAll]
  | n :: l, typ, m, d, ht, h => by
    simp only [drawableAll, Bool.and_eq_true] at h
    intro i hi
    simp only [inkAll, List.mem_append] at hi
    rcases hi with hi | hi
    · exact ink_known size n typ m d ht h.1 i hi
    · exact inkAll_known size l typ m d ht h.2 i hi
theorem inkArgs_known (size : F) : ∀ (l : List Node) (typ : GoString) (m : Bool), Moded typ m →
    List.Forall₂ (fun o k => o = true → ∀ i ∈ k, InkKnown K i) (drawableArgs K X num typ m l) (inkArgs typ size m l)
  | [], _, _, _ => by simp only [drawableArgs, inkArgs]; exact .nil
  | .arg _ l _ :: as, typ, m, ht => by
    simp only [drawableArgs, inkArgs]
    exact .cons (inkAll_known size l typ m false ht) (inkArgs_known size as typ m ht)
  | .optArg _ l _ :: as, typ, m, ht => by
    simp only [drawableArgs, inkArgs]
    exact .cons (inkAll_known size l typ m false ht) (inkArgs_known size as typ m ht)
  | .nil :: as, typ, m, ht => by simp only [drawableArgs, inkArgs]; exact .cons (fun h => by cases h) (inkArgs_known size as typ m ht)
  | .list _ :: as, typ, m, ht => by simp only [drawableArgs, inkArgs]; exact .cons (fun h => by cases h) (inkArgs_known size as typ m ht)
  | .macro _ _ :: as, typ, m, ht => by simp only [drawableArgs, inkArgs]; exact .cons (fun h => by cases h) (inkArgs_known size as typ m ht)
  | .ident _ _ :: as, typ, m, ht => by simp only [drawableArgs, inkArgs]; exact .cons (fun h => by cases h) (inkArgs_known size as typ m ht)
  | .math _ _ _ _ :: as, typ, m, ht => by simp only [drawableArgs, inkArgs]; exact .cons (fun h => by cases h) (inkArgs_known size as typ m ht)
  | .word _ _ :: as, typ, m, ht => by simp only [drawableArgs, inkArgs]; exact .cons (fun h => by cases h) (inkArgs_known size as typ m ht)
  | .lit _ _ :: as, typ, m, ht => by simp only [drawableArgs, inkArgs]; exact .cons (fun h => by cases h) (inkArgs_known size as typ m ht)
  | .sym _ _ :: as, typ, m, ht => by simp only [drawableArgs, inkArgs]; exact .cons (fun h => by cases h) (inkArgs_known size as typ m ht)
  | .sub _ _ :: as, typ, m, ht => by simp only [drawableArgs, inkArgs]; exact .cons (fun h => by cases h) (inkArgs_known size as typ m ht)
  | .sup _ _ :: as, typ, m, ht => by simp only [drawableArgs, inkArgs]; exact .cons (fun h => by cases h) (inkArgs_known size as typ m ht)
end
end

end Verif
