import Verif.Lemmas.Zoom
import Verif.Lemmas.Built
/-! # mtex commutes with changes of scale -/

namespace Verif
open GoFloat Spec
variable {F : Type} [GoFloat F] {be be' : Backend F} {G : Bool → Prop}

/-- No accents, at most `k` lists with glue one in another, no glue. -/
def Tame (k : Nat) (n : TNode F) : Prop := NoMark n ∧ glueNest n ≤ k ∧ isGlue n = false

omit [GoFloat F] in
theorem noMarks_iff {l : List (TNode F)} : NoMarks l ↔ ∀ n ∈ l, NoMark n := by
  induction l with
  | nil => simp [NoMarks]
  | cons n l ih => simp [NoMarks, ih]

theorem glueNests_le {l : List (TNode F)} {k : Nat} : glueNests l ≤ k ↔ ∀ n ∈ l, glueNest n ≤ k := by
  induction l with
  | nil => simp [glueNests]
  | cons n l ih => rw [glueNests]; simp only [List.mem_cons, forall_eq_or_imp, ← ih]; exact Nat.max_le

theorem noGlue_iff {l : List (TNode F)} : l.any isGlue = false ↔ ∀ n ∈ l, isGlue n = false := by
  rw [List.any_eq_false]; simp

/-- A list without glue. -/
theorem tame_list {k : Nat} {l : List (TNode F)} (h : ∀ n ∈ l, Tame k n) (kd : LKind) (hd : LHead F) : Tame k (.list kd hd l) := by
  refine ⟨?_, ?_, rfl⟩
  · rw [NoMark]; exact noMarks_iff.2 fun n hn => (h n hn).1
  · rw [glueNest, noGlue_iff.2 fun n hn => (h n hn).2.2]
    simpa using glueNests_le.2 fun n hn => (h n hn).2.1

/-- A list with glue. -/
theorem tame_glued {k : Nat} {l : List (TNode F)} (h : ∀ n ∈ l, Tame k n ∨ isGlue n = true) (kd : LKind) (hd : LHead F) : Tame (k + 1) (.list kd hd l) := by
  have hg : ∀ n : TNode F, isGlue n = true → NoMark n ∧ glueNest n = 0 := by
    intro n hn; cases n <;> first | (cases hn; done) | exact ⟨trivial, rfl⟩
  refine ⟨?_, ?_, rfl⟩
  · rw [NoMark]
    refine noMarks_iff.2 fun n hn => ?_
    rcases h n hn with h | h
    · exact h.1
    · exact (hg n h).1
  · have h1 : glueNests l ≤ k := glueNests_le.2 fun n hn => by
      rcases h n hn with h | h
      · exact h.2.1
      · rw [(hg n h).2]; omega
    rw [glueNest]
    split <;> omega

theorem Tame.up {j k : Nat} (h : j ≤ k) {n : TNode F} (hn : Tame j n) : Tame k n := ⟨hn.1, Nat.le_trans hn.2.1 h, hn.2.2⟩

theorem tame_kerns {k : Nat} {l : List (TNode F)} (h : ∀ n ∈ l, Tame k n) : ∀ n ∈ insertKerns be l, Tame k n := by
  induction l with
  | nil => intro n hn; cases hn
  | cons n l ih =>
    have h1 := h n List.mem_cons_self
    have h2 := ih fun m hm => h m (List.mem_cons_of_mem _ hm)
    intro m hm
    rw [insertKerns] at hm
    split at hm
    · rcases List.mem_cons.1 hm with rfl | hm
      · exact h1
      · rcases List.mem_cons.1 hm with rfl | hm
        · exact ⟨trivial, Nat.zero_le _, rfl⟩
        · exact h2 m hm
    · rcases List.mem_cons.1 hm with rfl | hm
      · exact h1
      · exact h2 m hm

theorem tame_hlistOf {k : Nat} {l : List (TNode F)} (h : ∀ n ∈ l, Tame k n) : Tame k (hlistOf be l true) := by
  unfold hlistOf
  simp only [if_true]
  exact tame_list (tame_kerns h) _ _

mutual
theorem glueNest_shrink (be : Backend F) : ∀ n : TNode F, glueNest (n.shrink be) = glueNest n ∧ isGlue (n.shrink be) = isGlue n
  | .box b => ⟨rfl, rfl⟩
  | .rule b => ⟨rfl, rfl⟩
  | .char c => ⟨rfl, rfl⟩
  | .accent c => ⟨rfl, rfl⟩
  | .glue c => ⟨rfl, rfl⟩
  | .kern c => ⟨rfl, rfl⟩
  | .list k hd cs => by
    refine ⟨?_, rfl⟩
    simp only [TNode.shrink, glueNest]
    obtain ⟨h1, h2⟩ := glueNests_shrink be cs
    rw [h1, h2]
theorem glueNests_shrink (be : Backend F) : ∀ l : List (TNode F), glueNests (shrinkAll be l) = glueNests l ∧ (shrinkAll be l).any isGlue = l.any isGlue
  | [] => ⟨rfl, rfl⟩
  | n :: l => by
    obtain ⟨h1, h2⟩ := glueNest_shrink be n
    obtain ⟨h3, h4⟩ := glueNests_shrink be l
    simp only [shrinkAll, glueNests, List.any_cons, h1, h2, h3, h4, and_self]
end

theorem tame_shrink {k : Nat} {n : TNode F} (h : Tame k n) : Tame k (n.shrink be) := by
  obtain ⟨h1, h2⟩ := glueNest_shrink be n
  exact ⟨noMark_shrink be n h.1, by rw [h1]; exact h.2.1, by rw [h2]; exact h.2.2⟩

omit [GoFloat F] in
theorem tame_char {k : Nat} (c : CharD F) : Tame k (.char c) := ⟨trivial, Nat.zero_le _, rfl⟩
omit [GoFloat F] in
theorem tame_box {k : Nat} (c : BoxD F) : Tame k (.box c) := ⟨trivial, Nat.zero_le _, rfl⟩
omit [GoFloat F] in
theorem tame_rule {k : Nat} (c : BoxD F) : Tame k (.rule c) := ⟨trivial, Nat.zero_le _, rfl⟩
omit [GoFloat F] in
theorem tame_kern {k : Nat} (c : KernD F) : Tame k (.kern c) := ⟨trivial, Nat.zero_le _, rfl⟩

theorem tame_auto {k : Nat} {c : GoString} {h d : F} {st : TState F} {f : F} {n : TNode F} (e : autoHeightChar be c h d st f = .ok n) : Tame k n := by
  have key : ∀ ch : CharD F, ∀ n ∈ insertKerns be [.char ch], Tame k n := fun ch => tame_kerns fun n hn => by
    rw [List.mem_singleton] at hn; rw [hn]; exact tame_char _
  replace e := autoHeightChar_ok e
  unfold autoHeightBody at e
  obtain ⟨ch, -, e⟩ := Res.bind_eq_ok.1 e
  dsimp only at e
  split at e
  · obtain ⟨ch', -, e⟩ := Res.bind_eq_ok.1 e
    cases e
    exact tame_list (key _) _ _
  · cases e
    exact tame_list (key _) _ _

theorem tame_space {k : Nat} {st : TState F} {w : F} {n : TNode F} (h : makeSpace be st w = .ok n) : Tame k n := by
  unfold makeSpace at h
  dsimp only at h
  split at h
  · cases h; exact tame_kern _
  · cases h

theorem tame_frac {k : Nat} {dl : Bool} {rule : F} {ds : Bool} {a b : TNode F} {st : TState F} {n : TNode F} (ha : Tame k a) (hb : Tame k b)
    (h : genfrac be dl rule ds a b st = .ok n) : Tame (k + 1) n := by
  have sh : ∀ m : TNode F, Tame k m → Tame k (if ds then m else m.shrink be) := by
    intro m h; split
    · exact h
    · exact tame_shrink h
  have cen : ∀ (m : TNode F) w hd, Tame k m → Tame (k + 1) (.list .h hd (centredTo m w).2) := fun m w hd h =>
    tame_glued (by
      intro n hn
      simp only [centredTo, List.mem_cons, List.not_mem_nil, or_false] at hn
      rcases hn with rfl | rfl | rfl
      · exact .inr rfl
      · exact .inl h
      · exact .inr rfl) _ _
  unfold genfrac at h
  dsimp only at h
  obtain ⟨hd, -, h⟩ := Res.bind_eq_ok.1 h
  split at h
  · have gbox : ∀ hd' w s r kk, Tame (k + 1) (hlistOf be [.list .v hd'
        [.list .h (centredTo (if ds then a else a.shrink be) w).1 (centredTo (if ds then a else a.shrink be) w).2, vbox zero s, hrule be st r, vbox zero s,
         .list .h (centredTo (if ds then b else b.shrink be) w).1 (centredTo (if ds then b else b.shrink be) w).2], hbox kk] true) := by
      intro hd' w s r kk
      refine tame_hlistOf (mem2 (tame_list ?_ _ _) (tame_box _))
      intro n hn
      simp only [List.mem_cons, List.not_mem_nil, or_false] at hn
      rcases hn with rfl | rfl | rfl | rfl | rfl
      · exact cen _ _ _ (sh _ ha)
      · exact tame_box _
      · exact tame_rule _
      · exact tame_box _
      · exact cen _ _ _ (sh _ hb)
    cases dl
    · simp only [Bool.false_eq_true, if_false, Res.ok.injEq] at h
      subst h
      exact gbox _ _ _ _ _
    · simp only [if_true] at h
      unfold autoSizedDelimiter at h
      dsimp only at h
      obtain ⟨l, hl, h⟩ := Res.bind_eq_ok.1 h
      obtain ⟨r, hr, h⟩ := Res.bind_eq_ok.1 h
      cases h
      exact tame_hlistOf (mem3 (tame_auto hl) (gbox _ _ _ _ _) (tame_auto hr))
  · cases h

theorem tame_ruled {k : Nat} {st : TState F} {body : TNode F} {hh d : F} {n : TNode F} (hb : Tame k body)
    (h : ruled be st body hh d = .ok n) : Tame (k + 1) n := by
  unfold ruled at h
  obtain ⟨gl, -, h⟩ := Res.bind_eq_ok.1 h
  obtain ⟨hd, -, h⟩ := Res.bind_eq_ok.1 h
  obtain ⟨hd', -, h⟩ := Res.bind_eq_ok.1 h
  cases h
  refine tame_glued ?_ _ _
  intro n hn
  simp only [List.mem_cons, List.not_mem_nil, or_false] at hn
  rcases hn with rfl | rfl | rfl
  · exact .inl (tame_rule _)
  · exact .inr rfl
  · exact .inl hb

theorem tame_hbody {k : Nat} {l : List (TNode F)} (h : ∀ n ∈ l, Tame k n) : Tame k (.list .h (hbody be l).1 (hbody be l).2) :=
  tame_list (tame_kerns h) _ _

theorem tame_sqrt {k : Nat} {root : Option (TNode F)} {b : List (TNode F)} {st : TState F} {n : TNode F} (hroot : ∀ r, root = some r → Tame k r)
    (hb : ∀ n ∈ b, Tame k n) (h : buildSqrt be root (hbody be b).1 (hbody be b).2 st = .ok n) : Tame (k + 1) n := by
  unfold buildSqrt at h
  dsimp only at h
  obtain ⟨check, hc, h⟩ := Res.bind_eq_ok.1 h
  obtain ⟨rhs, hr, h⟩ := Res.bind_eq_ok.1 h
  obtain ⟨hd', -, h⟩ := Res.bind_eq_ok.1 h
  cases h
  have gp : Tame k (hlistOf be [hbox (ofInt 2 * be.underline st.font st.dpi), .list .h (hbody be b).1 (hbody be b).2,
      hbox (ofInt 2 * be.underline st.font st.dpi)] true) := tame_hlistOf (mem3 (tame_box _) (tame_hbody hb) (tame_box _))
  have gr := tame_ruled gp hr
  refine tame_hlistOf ?_
  intro n hn
  simp only [List.mem_cons, List.not_mem_nil, or_false] at hn
  rcases hn with rfl | rfl | rfl | rfl
  · refine Tame.up (Nat.le_succ k) (tame_list ?_ _ _)
    intro n hn
    rw [List.mem_singleton] at hn
    rw [hn]
    refine tame_hlistOf ?_
    intro n hn
    rw [List.mem_singleton] at hn
    rw [hn]
    cases root with
    | none => exact tame_box _
    | some r => exact tame_shrink (tame_shrink (hroot r rfl))
  · exact tame_kern _
  · exact tame_auto hc
  · exact gr

theorem tame_over {k : Nat} {b : List (TNode F)} {st : TState F} {n : TNode F}
    (hb : ∀ n ∈ b, Tame k n) (h : buildOverline be (hbody be b).1 (hbody be b).2 st = .ok n) : Tame (k + 1) n := by
  unfold buildOverline at h
  dsimp only at h
  obtain ⟨rhs, hr, h⟩ := Res.bind_eq_ok.1 h
  cases h
  refine tame_hlistOf ?_
  intro n hn
  rw [List.mem_singleton] at hn
  rw [hn]
  refine tame_ruled (tame_hlistOf ?_) hr
  intro n hn
  rw [List.mem_singleton] at hn
  rw [hn]
  exact tame_hbody hb

/-- The handlers that make lists with glue. -/
def stackOf : Hk → Nat
  | .frac | .dfrac | .tfrac | .binom | .sqrt | .overline => 1
  | _ => 0

theorem stackOf_name {name : GoString} {h : Hk} (e : handlerOf name = some h) :
    stackOf h = if name ∈ [bs!"\\frac", bs!"\\dfrac", bs!"\\tfrac", bs!"\\binom", bs!"\\sqrt", bs!"\\overline"] then 1 else 0 := by
  by_cases hc : name ∈ [bs!"\\frac", bs!"\\dfrac", bs!"\\tfrac", bs!"\\binom", bs!"\\sqrt", bs!"\\overline"]
  · rw [if_pos hc]
    have key : ∀ n ∈ [bs!"\\frac", bs!"\\dfrac", bs!"\\tfrac", bs!"\\binom", bs!"\\sqrt", bs!"\\overline"], ∀ h, handlerOf n = some h → stackOf h = 1 := by
      decide +kernel
    exact key name hc h e
  · rw [if_neg hc]
    simp only [List.mem_cons, List.not_mem_nil, or_false, not_or] at hc
    obtain ⟨n1, n2, n3, n4, n5, n6⟩ := hc
    unfold handlerOf at e
    generalize (List.lookup name spaceWidth).isSome = b1 at e
    generalize (isSpaced name || setHas (newSet symPunctuationSymbols) name) = b2 at e
    generalize setHas (newSet symFunctionNames) (List.drop 1 name) = b3 at e
    generalize hasMacro name = b4 at e
    rw [if_neg n1, if_neg n2, if_neg n3, if_neg n4, if_neg n5, if_neg n6] at e
    cases b1 <;> cases b2 <;> cases b3 <;> cases b4 <;> simp only [Bool.false_eq_true, if_true, if_false] at e
    all_goals repeat' split at e
    all_goals cases e
    all_goals rfl

/-- What is made of a document, and what is made of it at another scale. -/
def Both (z : Zoom F) (k : Nat) (r r' : Res (List (TNode F))) : Prop := AllRes (Tame k) r ∧ r' = Res.as r z.nodes

section
variable {z : Zoom F} {num : GoString → Option F} {x : GoString}

theorem both_panic {k : Nat} {p : Panic} : Both z k (.panic p) (.panic p) := ⟨allRes_panic, rfl⟩
theorem both_nil {k : Nat} : Both z k (.ok []) (.ok []) := ⟨allRes_nil, rfl⟩
theorem both_one {k : Nat} {r r' : Res (TNode F)} (h : ∀ n, r = .ok n → Tame k n) (h' : r' = Res.as r z.node) :
    Both z k (r >>= fun n => .ok [n]) (r' >>= fun n => .ok [n]) :=
  ⟨allRes_one h, bind_as h' fun _ _ => rfl⟩
theorem both_append {k : Nat} {r s r' s' : Res (List (TNode F))} (h1 : Both z k r r') (h2 : Both z k s s') :
    Both z k (r >>= fun a => s >>= fun b => .ok (a ++ b)) (r' >>= fun a => s' >>= fun b => .ok (a ++ b)) :=
  ⟨allRes_append h1.1 h2.1, bind_as h1.2 fun a _ => bind_as h2.2 fun b _ => by rw [as_ok, zoom_nodes_append]⟩

theorem tame_symbol {k : Nat} {st : TState F} {pos : Nat} {t : GoString} {m : Bool} {n : TNode F}
    (h : handleSymbol be x pos t st m = .ok n) : Tame k n := by
  unfold handleSymbol at h
  obtain ⟨ch, hc, h⟩ := Res.bind_eq_ok.1 h
  split at h
  · dsimp only at h
    split at h
    · simp only [Res.ok.injEq] at h; subst h; exact tame_char _
    · obtain ⟨k1, e1, h⟩ := Res.bind_eq_ok.1 h
      obtain ⟨k2, e2, h⟩ := Res.bind_eq_ok.1 h
      simp only [Res.ok.injEq] at h; subst h
      exact tame_hlistOf (mem3 (tame_space e1) (tame_char _) (tame_space e2))
  · split at h
    · split at h
      · split at h
        · simp only [Res.ok.injEq] at h; subst h; exact tame_char _
        · obtain ⟨k1, e1, h⟩ := Res.bind_eq_ok.1 h
          simp only [Res.ok.injEq] at h; subst h
          exact tame_hlistOf (mem2 (tame_char _) (tame_space e1))
      · cases h
    · simp only [Res.ok.injEq] at h; subst h; exact tame_char _

theorem tame_chars {k : Nat} {st : TState F} {m : Bool} (l : List Ch) : AllRes (Tame k) (newChars be st m l) := by
  induction l with
  | nil => exact allRes_nil
  | cons c l ih =>
    intro r h
    rw [newChars] at h
    obtain ⟨ch, hc, h⟩ := Res.bind_eq_ok.1 h
    obtain ⟨r', hr, h⟩ := Res.bind_eq_ok.1 h
    cases h
    intro n hn
    rcases List.mem_cons.1 hn with rfl | hn
    · exact tame_char _
    · exact ih r' hr n hn

theorem tame_literal {k : Nat} {st : TState F} {m : Bool} (l : List Ch) : AllRes (Tame k) (literalChars be x st m l) := by
  induction l with
  | nil => exact allRes_nil
  | cons c l ih =>
    intro r h
    rw [literalChars] at h
    obtain ⟨ch, hc, h⟩ := Res.bind_eq_ok.1 h
    obtain ⟨r', hr, h⟩ := Res.bind_eq_ok.1 h
    cases h
    intro n hn
    rcases List.mem_cons.1 hn with rfl | hn
    · exact tame_symbol hc
    · exact ih r' hr n hn

theorem tame_func {k : Nat} {st : TState F} {t : GoString} {m : Bool} {n : TNode F} (h : handleFunction be t st m = .ok n) : Tame k n := by
  unfold handleFunction at h
  obtain ⟨r, hr, h⟩ := Res.bind_eq_ok.1 h
  cases h
  exact tame_hlistOf (tame_chars _ r hr)

theorem tame_blank {k : Nat} {st : TState F} {t : GoString} {n : TNode F} (h : handleSpace be t st = .ok n) : Tame k n := by
  unfold handleSpace at h
  split at h
  · exact tame_space h
  · cases h

theorem tame_macros {k : Nat} {st : TState F} {math : Bool} (h : Hk) (pos : Nat) (t : GoString) (args : List Node)
    (rs : List (Res (List (TNode F)))) (hr : ∀ r ∈ rs, AllRes (Tame k) r) (n : TNode F)
    (hb : build be num x st math h pos t args rs = .ok n) : Tame (k + stackOf h) n := by
  have two : ∀ {dl : Bool} {rule : F} {ds : Bool} {st : TState F} {r1 r2 : Res (List (TNode F))}, AllRes (Tame k) r1 → AllRes (Tame k) r2 →
      (r1 >>= fun a => r2 >>= fun b => genfrac be dl rule ds (hl be a) (hl be b) st) = .ok n → Tame (k + 1) n := by
    intro dl rule ds st r1 r2 h1 h2 e
    obtain ⟨a, ha, e⟩ := Res.bind_eq_ok.1 e
    obtain ⟨b, hb, e⟩ := Res.bind_eq_ok.1 e
    rw [hl_eq, hl_eq] at e
    exact tame_frac (tame_hlistOf (h1 a ha)) (tame_hlistOf (h2 b hb)) e
  cases h <;> unfold build at hb <;> dsimp only at hb
  case space => exact tame_blank hb
  case symbol => exact tame_symbol hb
  case function => exact tame_func hb
  case hspace =>
    split at hb
    · split at hb
      · exact tame_space hb
      · cases hb
    · cases hb
  case frac | tfrac | dfrac | binom =>
    split at hb
    · exact two (hr _ (by simp)) (hr _ (by simp)) hb
    · cases hb
  case sqrt =>
    split at hb
    · obtain ⟨a, ha, hb⟩ := Res.bind_eq_ok.1 hb
      obtain ⟨b, hb', hb⟩ := Res.bind_eq_ok.1 hb
      refine tame_sqrt (fun r hr' => ?_) (hr _ (by simp) b hb') hb
      cases hr'
      rw [hl_eq]
      exact tame_hlistOf (hr _ (by simp) a ha)
    · obtain ⟨b, hb', hb⟩ := Res.bind_eq_ok.1 hb
      exact tame_sqrt (fun r hr => by cases hr) (hr _ (by simp) b hb') hb
    · cases hb
  case overline =>
    split at hb
    · obtain ⟨b, hb', hb⟩ := Res.bind_eq_ok.1 hb
      exact tame_over (hr _ (by simp) b hb') hb
    · cases hb

theorem zoom_hl (hb : Zoomed z be be' G) (l : List (TNode F)) : hl be' (z.nodes l) = z.node (hl be l) := by
  rw [hl_eq, hl_eq, zoom_hlistOf z hb]

theorem zoom_macros {k : Nat} (hb : Zoomed z be be' G) (hG : G true) (hneg : GoFloat.lt (ofInt (-1) : F) zero = true) {st : TState F} {math : Bool} (hm : G math)
    (h : Hk) (pos : Nat) (t : GoString) (args : List Node) (rs : List (Res (List (TNode F)))) (hr : ∀ r ∈ rs, AllRes (Tame k) r) :
    build be' num x (z.state st) math h pos t args (rs.map (Res.as · z.nodes)) = Res.as (build be num x st math h pos t args rs) z.node := by
  have hu : be'.underline (z.state st).font (z.state st).dpi = z.len (be.underline st.font st.dpi) := hb.underline _ _
  have two : ∀ (dl : Bool) (rule : F) (ds : Bool) (r1 r2 : Res (List (TNode F))), AllRes (Tame k) r1 → AllRes (Tame k) r2 →
      (Res.as r1 z.nodes >>= fun a => Res.as r2 z.nodes >>= fun b => genfrac be' dl (z.len rule) ds (hl be' a) (hl be' b) (z.state st)) =
      Res.as (r1 >>= fun a => r2 >>= fun b => genfrac be dl rule ds (hl be a) (hl be b) st) z.node := by
    intro dl rule ds r1 r2 h1 h2
    refine bind_as rfl fun a ha => bind_as rfl fun b hb' => ?_
    rw [zoom_hl hb, zoom_hl hb]
    refine zoom_genfrac z hb hG _ _ _ _ _ ?_ ?_ _
    · rw [hl_eq]; exact (tame_hlistOf (h1 a ha)).1
    · rw [hl_eq]; exact (tame_hlistOf (h2 b hb')).1
  cases h <;> unfold build <;> dsimp only
  case space => exact zoom_handleSpace z hb hG _ _
  case symbol => exact zoom_handleSymbol z hb hG _ _ _ _ _ hm
  case function => exact zoom_handleFunction z hb _ _ _ hm
  case hspace =>
    split
    · split
      · exact zoom_makeSpace z hb hG _ _
      · rfl
    · rfl
  case frac | tfrac | dfrac =>
    rw [hu]
    rcases args with _ | ⟨a1, as⟩
    · rfl
    cases a1 <;> try rfl
    rcases as with _ | ⟨a2, as⟩
    · rfl
    cases a2 <;> try rfl
    rcases rs with _ | ⟨r1, _ | ⟨r2, rs⟩⟩
    · rfl
    · rfl
    · exact two _ _ _ _ _ (hr _ (by simp)) (hr _ (by simp))
  case binom =>
    rcases args with _ | ⟨a1, as⟩
    · rfl
    cases a1 <;> try rfl
    rcases as with _ | ⟨a2, as⟩
    · rfl
    cases a2 <;> try rfl
    rcases rs with _ | ⟨r1, _ | ⟨r2, rs⟩⟩
    · rfl
    · rfl
    · have := two true zero false r1 r2 (hr _ (by simp)) (hr _ (by simp))
      rw [z.zero] at this
      exact this
  case sqrt =>
    rcases args with _ | ⟨a1, as⟩
    · rfl
    cases a1 <;> try rfl
    · rcases as with _ | ⟨a2, as⟩
      · rcases rs with _ | ⟨r1, rs⟩
        · rfl
        · simp only [List.map_cons]
          refine bind_as rfl fun b hb' => ?_
          rw [zoom_hbody z hb]
          exact zoom_buildSqrt z hb hG hneg none (fun n e => by cases e) _ _ st
      · rfl
    · rcases as with _ | ⟨a2, as⟩
      · rfl
      cases a2 <;> try rfl
      rcases as with _ | ⟨a3, as⟩
      · rcases rs with _ | ⟨r1, _ | ⟨r2, rs⟩⟩
        · rfl
        · rfl
        · simp only [List.map_cons]
          refine bind_as rfl fun a ha => bind_as rfl fun b hb' => ?_
          rw [zoom_hbody z hb, zoom_hl hb]
          refine zoom_buildSqrt z hb hG hneg (some _) (fun n e => ?_) _ _ st
          cases e
          rw [hl_eq]; exact (tame_hlistOf (hr _ (by simp) a ha)).1
      · rfl
  case overline =>
    rcases args with _ | ⟨a1, as⟩
    · rfl
    cases a1 <;> try rfl
    rcases rs with _ | ⟨r1, rs⟩
    · rfl
    · simp only [List.map_cons]
      refine bind_as rfl fun b hb' => ?_
      rw [zoom_hbody z hb]
      exact zoom_buildOverline z hb hneg _ _ st

theorem stackNest_cons {n : Node} {l : List Node} {k : Nat} (h : stackNests (n :: l) ≤ k) : stackNest n ≤ k ∧ stackNests l ≤ k := by
  rw [stackNests] at h; exact Nat.max_le.1 h

theorem both_sym {k : Nat} (hb : Zoomed z be be' G) (hG : G true) {st : TState F} {math : Bool} (hm : G math) (p : Nat) (t : GoString) :
    Both z k (visitN be num x st math (.sym p t)) (visitN be' num x (z.state st) math (.sym p t)) := by
  rw [visitN, visitN]
  split
  · refine both_one (fun n hn => ?_) ?_
    · unfold buildSym at hn
      split at hn <;> first | (cases hn; done) | skip
      · exact tame_blank hn
      · exact tame_symbol hn
    · unfold buildSym
      split <;> first | rfl | skip
      · exact zoom_handleSpace z hb hG _ _
      · exact zoom_handleSymbol z hb hG _ _ _ _ _ hm
  · refine ⟨?_, bind_as (zoom_newChar z hb _ _ _ hm) fun c _ => rfl⟩
    intro l hl
    obtain ⟨c, hc, hl⟩ := Res.bind_eq_ok.1 hl
    cases hl
    intro n hn
    rw [List.mem_singleton] at hn
    rw [hn]; exact tame_char _

theorem both_word {k : Nat} (hb : Zoomed z be be' G) {st : TState F} {math : Bool} (hm : G math) (p : Nat) (t : GoString) :
    Both z k (visitN be num x st math (.word p t)) (visitN be' num x (z.state st) math (.word p t)) := by
  rw [visitN, visitN]
  refine ⟨?_, bind_as (zoom_newChars z hb _ _ hm _) fun c _ => ?_⟩
  · intro l hl
    obtain ⟨c, hc, hl⟩ := Res.bind_eq_ok.1 hl
    cases hl
    intro n hn
    rw [List.mem_singleton] at hn
    rw [hn]; exact tame_hlistOf (tame_chars _ c hc)
  · rw [zoom_hlistOf z hb]; rfl

theorem both_lit {k : Nat} (hb : Zoomed z be be' G) (hG : G true) {st : TState F} {math : Bool} (hm : G math) (p : Nat) (t : GoString) :
    Both z k (visitN be num x st math (.lit p t)) (visitN be' num x (z.state st) math (.lit p t)) := by
  rw [visitN, visitN]
  exact ⟨tame_literal _, zoom_literalChars z hb hG _ _ _ hm _⟩

theorem both_macro {k : Nat} (hb : Zoomed z be be' G) (hG : G true) (hneg : GoFloat.lt (ofInt (-1) : F) zero = true) {st : TState F} {math : Bool}
    (hm : G math) (p : Nat) (name : GoString) (args : List Node) (hk : stackNest (.macro (some (p, name)) args) ≤ k)
    (h1 : ∀ r ∈ walkArgs be num x st math args, AllRes (Tame (stackNests args)) r)
    (h2 : walkArgs be' num x (z.state st) math args = (walkArgs be num x st math args).map (Res.as · z.nodes)) :
    Both z k (visitN be num x st math (.macro (some (p, name)) args)) (visitN be' num x (z.state st) math (.macro (some (p, name)) args)) := by
  rw [visitN, visitN]
  cases hh : handlerOf name with
  | none => exact both_panic
  | some h =>
    dsimp only
    refine both_one (fun n e => ?_) ?_
    · refine (tame_macros h p name args _ h1 n e).up ?_
      have := stackOf_name hh
      rw [stackNest] at hk
      split at this
      · rename_i hc; rw [if_pos hc] at hk; omega
      · rename_i hc; rw [if_neg hc] at hk; omega
    · rw [h2]
      exact zoom_macros hb hG hneg hm h p name args _ h1

variable (hb : Zoomed z be be' G) (hG : G true) (hneg : GoFloat.lt (ofInt (-1) : F) zero = true)
include hb hG hneg

mutual
theorem both_visit : ∀ (n : Node) (k : Nat) (st : TState F) (math : Bool), G math → stackNest n ≤ k →
    Both z k (visitN be num x st math n) (visitN be' num x (z.state st) math n)
  | .list l, k, st, math, _, _ => by rw [visitN, visitN]; exact both_nil
  | .nil, k, st, math, _, _ => by rw [visitN, visitN]; exact both_nil
  | .sym p t, k, st, math, hm, hk => both_sym hb hG hm p t
  | .word p t, k, st, math, hm, hk => both_word hb hm p t
  | .lit p t, k, st, math, hm, hk => both_lit hb hG hm p t
  | .math d a l b, k, st, math, hm, hk => by
    rw [visitN, visitN]
    exact both_visitAll l k _ true hG (by rw [stackNest] at hk; exact hk)
  | .macro none _, _, _, _, _, _ => by rw [visitN, visitN]; exact both_panic
  | .macro (some (p, name)) args, k, st, math, hm, hk =>
    both_macro hb hG hneg hm p name args hk (both_args args _ st math hm (Nat.le_refl _)).1 (both_args args _ st math hm (Nat.le_refl _)).2
  | .arg .., _, _, _, _, _ => by rw [visitN, visitN]; exact both_panic
  | .optArg .., _, _, _, _, _ => by rw [visitN, visitN]; exact both_panic
  | .ident .., _, _, _, _, _ => by rw [visitN, visitN]; exact both_panic
  | .sub .., _, _, _, _, _ => by rw [visitN, visitN]; exact both_panic
  | .sup .., _, _, _, _, _ => by rw [visitN, visitN]; exact both_panic
theorem both_visitAll : ∀ (l : List Node) (k : Nat) (st : TState F) (math : Bool), G math → stackNests l ≤ k →
    Both z k (visitAll be num x st math l) (visitAll be' num x (z.state st) math l)
  | [], k, st, math, _, _ => by rw [visitAll, visitAll]; exact both_nil
  | n :: l, k, st, math, hm, hk => by
    rw [visitAll, visitAll]
    exact both_append (both_visit n k st math hm (stackNest_cons hk).1) (both_visitAll l k st math hm (stackNest_cons hk).2)
theorem both_walk : ∀ (n : Node) (k : Nat) (st : TState F) (math : Bool), G math → stackNest n ≤ k →
    Both z k (walkN be num x st math n) (walkN be' num x (z.state st) math n)
  | .list l, k, st, math, hm, hk => by rw [walkN, walkN]; exact both_walkAll l k st math hm (by rw [stackNest] at hk; exact hk)
  | .nil, k, st, math, _, _ => by rw [walkN, walkN]; exact both_panic
  | .sym p t, k, st, math, hm, hk => by rw [walkN, walkN]; exact both_sym hb hG hm p t
  | .word p t, k, st, math, hm, hk => by rw [walkN, walkN]; exact both_word hb hm p t
  | .lit p t, k, st, math, hm, hk => by rw [walkN, walkN]; exact both_lit hb hG hm p t
  | .math d a l b, k, st, math, hm, hk => by
    rw [walkN, walkN]
    exact both_visitAll l k _ true hG (by rw [stackNest] at hk; exact hk)
  | .macro none _, _, _, _, _, _ => by rw [walkN, walkN, visitN, visitN]; exact both_panic
  | .macro (some (p, name)) args, k, st, math, hm, hk => by
    rw [walkN, walkN]
    exact both_macro hb hG hneg hm p name args hk (both_args args _ st math hm (Nat.le_refl _)).1 (both_args args _ st math hm (Nat.le_refl _)).2
  | .arg .., _, _, _, _, _ => by rw [walkN, walkN]; exact both_panic
  | .optArg .., _, _, _, _, _ => by rw [walkN, walkN]; exact both_panic
  | .ident .., _, _, _, _, _ => by rw [walkN, walkN]; exact both_panic
  | .sub .., _, _, _, _, _ => by rw [walkN, walkN]; exact both_panic
  | .sup .., _, _, _, _, _ => by rw [walkN, walkN]; exact both_panic
theorem both_walkAll : ∀ (l : List Node) (k : Nat) (st : TState F) (math : Bool), G math → stackNests l ≤ k →
    Both z k (walkAll be num x st math l) (walkAll be' num x (z.state st) math l)
  | [], k, st, math, _, _ => by rw [walkAll, walkAll]; exact both_nil
  | n :: l, k, st, math, hm, hk => by
    rw [walkAll, walkAll]
    exact both_append (both_walk n k st math hm (stackNest_cons hk).1) (both_walkAll l k st math hm (stackNest_cons hk).2)
theorem both_args : ∀ (l : List Node) (k : Nat) (st : TState F) (math : Bool), G math → stackNests l ≤ k →
    (∀ r ∈ walkArgs be num x st math l, AllRes (Tame k) r) ∧
      walkArgs be' num x (z.state st) math l = (walkArgs be num x st math l).map (Res.as · z.nodes)
  | [], k, st, math, _, _ => by rw [walkArgs, walkArgs]; exact ⟨fun r hr => (by cases hr), rfl⟩
  | n :: as, k, st, math, hm, hk => by
    rw [walkArgs, walkArgs]
    obtain ⟨h1, h2⟩ := both_arg n k st math hm (stackNest_cons hk).1
    obtain ⟨h3, h4⟩ := both_args as k st math hm (stackNest_cons hk).2
    refine ⟨?_, by rw [h2, h4]; rfl⟩
    intro r hr
    rcases List.mem_cons.1 hr with rfl | hr
    · exact h1
    · exact h3 r hr
theorem both_arg : ∀ (n : Node) (k : Nat) (st : TState F) (math : Bool), G math → stackNest n ≤ k →
    Both z k (walkArg be num x st math n) (walkArg be' num x (z.state st) math n)
  | .arg _ l _, k, st, math, hm, hk => by rw [walkArg, walkArg]; exact both_walkAll l k st math hm (by rw [stackNest] at hk; exact hk)
  | .optArg _ l _, k, st, math, hm, hk => by rw [walkArg, walkArg]; exact both_walkAll l k st math hm (by rw [stackNest] at hk; exact hk)
  | .nil, _, _, _, _, _ => by simp only [walkArg]; exact both_panic
  | .list _, _, _, _, _, _ => by simp only [walkArg]; exact both_panic
  | .macro _ _, _, _, _, _, _ => by simp only [walkArg]; exact both_panic
  | .ident _ _, _, _, _, _, _ => by simp only [walkArg]; exact both_panic
  | .math _ _ _ _, _, _, _, _, _ => by simp only [walkArg]; exact both_panic
  | .word _ _, _, _, _, _, _ => by simp only [walkArg]; exact both_panic
  | .lit _ _, _, _, _, _, _ => by simp only [walkArg]; exact both_panic
  | .sym _ _, _, _, _, _, _ => by simp only [walkArg]; exact both_panic
  | .sub _ _, _, _, _, _, _ => by simp only [walkArg]; exact both_panic
  | .sup _ _, _, _, _, _, _ => by simp only [walkArg]; exact both_panic
end

/-- mtex.Parse at another scale: if text mode is allowed, or if there are only formulas. -/
theorem zoom_parse (U : Nat → Bool) (size dpi : F) (root : Node) (hp : parseExpr U x = .ok root) (hM : G false ∨ OnlyMath root) :
    mtexParse U be' num x (z.siz size) (z.res dpi) =
      Res.as (mtexParse U be num x size dpi) (fun q => (z.head q.1, z.nodes q.2)) ∧
    ∀ r, mtexParse U be num x size dpi = .ok r → ∀ n ∈ r.2, Tame (stackNest root) n := by
  have hst : initState (z.siz size) (z.res dpi) = z.state (initState size dpi) := rfl
  have key : Both z (stackNest root) (walkN be num x (initState size dpi) false root) (walkN be' num x (z.state (initState size dpi)) false root) := by
    rcases hM with h | h
    · exact both_walk hb hG hneg root _ _ false h (Nat.le_refl _)
    · cases root <;> simp only [OnlyMath] at h
      rename_i ns
      rw [walkN, walkN, stackNest]
      have key : ∀ (ns : List Node) (k : Nat), (∀ n ∈ ns, ∃ d a m b, n = .math d a m b) → stackNests ns ≤ k →
          Both z k (walkAll be num x (initState size dpi) false ns) (walkAll be' num x (z.state (initState size dpi)) false ns) := by
        intro ns k
        induction ns with
        | nil => intro _ _; rw [walkAll, walkAll]; exact both_nil
        | cons n ns ih =>
          intro hM hk
          obtain ⟨d, a, m, b, rfl⟩ := hM n (by simp)
          rw [walkAll, walkAll]
          refine both_append ?_ (ih (fun n hn => hM n (by simp [hn])) (stackNest_cons hk).2)
          rw [walkN, walkN]
          refine both_visitAll hb hG hneg m k _ true hG ?_
          have := (stackNest_cons hk).1
          rw [stackNest] at this; exact this
      exact key ns _ h (Nat.le_refl _)
  constructor
  · rw [mtexParse, mtexParse, hp, Res.ok_bind, Res.ok_bind, collect_eq, collect_eq, hst, key.2]
    refine bind_as rfl fun l _ => ?_
    rw [zoom_hbody z hb, as_ok]
  · intro r h
    rw [mtexParse, hp, Res.ok_bind, collect_eq] at h
    obtain ⟨l, hl, h⟩ := Res.bind_eq_ok.1 h
    cases h
    exact tame_kerns (key.1 l hl)

end

end Verif
