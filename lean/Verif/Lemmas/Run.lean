import Verif.Model.Run
import Verif.Lemmas.Ttf
import Verif.Lemmas.GrammarParse
/-! # A run with the TrueType backend is a run with a backend that is a function -/

namespace Verif
open GoFloat Spec
/-- Where text mode may occur: at the size `size`, and only if `on`. -/
structure TextAt (F : Type) where
  size : F
  on : Prop

variable {F H : Type} [GoFloat F] {B : TextAt F}

/-- What the TrueType backend would answer in a given state, as a function.  With `true`, it has the
symbols that have been loaded only. -/
def TtfEnv.backend (e : TtfEnv H) (q : Bool × TtfSt F H) : Backend F where
  kern f1 c1 f2 c2 d := match e.kern f1 c1 f2 c2 d q.2 with | (.ok k, _) => k | _ => zero
  metrics c f d m := match e.metrics c f d m q.2 with | (.ok r, _) => r | _ => TtfVal.metrics (H := H) .zero
  known c f d m := (match e.metrics c f d m q.2 with | (.ok _, _) => true | _ => false) &&
    (!q.1 || (q.2.find ⟨c, f, d⟩).isSome || !TtfKey.same ⟨c, f, d⟩ ⟨c, f, d⟩)
  xheight f _ := if e.xheightOk f then some zero else none
  underline := ttfUnderline

/-- The symbol that stands for the sign of a radical. No source has it. -/
def radicalSign : GoString := bs!"\\__sqrt__"

/-- Every entry of the map has been loaded; those of the italic font in math mode; those that have not
been loaded in math mode are of size `B.size` and are no sign of a radical, and there are some only if `B.on`. -/
structure TtfEnv.Sound (e : TtfEnv H) (B : TextAt F) (s : TtfSt F H) : Prop where
  loaded : Loaded e (fun _ => True) s
  italic : ∀ k v, (k, v) ∈ s.glyphs → k.font.typ = bs!"it" → e.load k.symbol k.font k.dpi true = .ok v
  base : ∀ k v, (k, v) ∈ s.glyphs → e.load k.symbol k.font k.dpi true = .ok v ∨ (B.on ∧ k.font.size = B.size ∧ k.symbol ≠ radicalSign)

/-- In the italic font the mode is math; in text mode the size is `B.size`, if there is text at all. -/
def ModeOk (B : TextAt F) (c : GoString) (f : Font F) (m : Bool) : Prop := (f.typ = bs!"it" → m = true) ∧ (m = false → B.on ∧ f.size = B.size ∧ c ≠ radicalSign)

theorem modeOk_math (B : TextAt F) (c : GoString) (f : Font F) : ModeOk B c f true := ⟨fun _ => rfl, fun h => by cases h⟩
theorem ModeOk.rm {B : TextAt F} {c : GoString} {st : TState F} {m : Bool} (h : ModeOk B c st.font m) : ModeOk B c (st.withType bs!"rm").font m :=
  ⟨(fun h => nomatch h), h.2⟩

theorem runeStr_ne {c : Ch} (h : c.Ok) : runeStr c ≠ radicalSign := by
  unfold runeStr
  split
  · decide
  · intro he
    rcases Nat.lt_or_ge c.r 128 with hr | hr
    · rw [h.1.2 hr] at he
      have := congrArg List.length he
      simp [radicalSign] at this
    · have := h.2 hr 92 (by rw [he]; rfl)
      omega

theorem getInfo_sound [EqLaws F] (e : TtfEnv H) {B : TextAt F} (c : GoString) (f : Font F) (d : F) (m : Bool) (s : TtfSt F H)
    (hm : ModeOk B c f m) (h : e.Sound B s) : e.Sound B (e.getInfo c f d m s).2 := by
  refine ⟨getInfo_loaded e _ c f d m s h.loaded trivial, ?_, ?_⟩
  all_goals unfold TtfEnv.getInfo
  · split
    · exact h.italic
    · split
      · next v hv =>
        intro k v' hk ht
        rcases List.mem_cons.1 hk with hk | hk
        · cases hk
          rw [← hm.1 ht]; exact hv
        · exact h.italic k v' hk ht
      · exact h.italic
      · exact h.italic
  · split
    · exact h.base
    · split
      · next v hv =>
        intro k v' hk
        rcases List.mem_cons.1 hk with hk | hk
        · cases hk
          cases m with
          | true => exact .inl hv
          | false => exact .inr (hm.2 rfl)
        · exact h.base k v' hk
      · exact h.base
      · exact h.base

theorem load_font (e : TtfEnv H) (c : GoString) (f : Font F) (d : F) (m : Bool) (v : TtfVal F H) (h : e.load c f d m = .ok v) :
    v.font ≠ none := by
  unfold TtfEnv.load at h
  rw [Res.bind_eq_ok] at h
  obtain ⟨⟨ft, rn⟩, -, h⟩ := h
  dsimp only at h
  repeat' (split at h <;> try (cases h; done))
  all_goals first | (cases h; simp) | cases h

/-- The key has an entry, unless it is not equal to itself. -/
def Cached (s : TtfSt F H) (c : GoString) (f : Font F) (d : F) : Prop :=
  TtfKey.same ⟨c, f, d⟩ ⟨c, f, d⟩ = false ∨ ∃ v, s.find ⟨c, f, d⟩ = some v

theorem Cached.mono {s s' : TtfSt F H} {c : GoString} {f : Font F} {d : F} (h : Cached s c f d) (hx : s.Ext s') :
    Cached s' c f d := by
  rcases h with h | ⟨v, h⟩
  · exact .inl h
  · exact .inr ⟨v, hx _ _ h⟩

/-- `m`, run in state `s`, does what `p` does with a backend that is a function; results satisfy `I`. -/
def Simul (e : TtfEnv H) (B : TextAt F) {α : Type} (m : TM F H α) (p : Backend F → Res α) (I : TtfSt F H → α → Prop) (s : TtfSt F H) : Prop :=
  match m s with
  | .ok (a, s') => s.Ext s' ∧ e.Sound B s' ∧ s'.canvas = s.canvas ∧ I s' a ∧
      ∀ b s2, s'.Ext s2 → e.Sound B s2 → p (e.backend (b, s2)) = .ok a
  | .panic q => ∃ s', s.Ext s' ∧ e.Sound B s' ∧ p (e.backend (false, s')) = .panic q
  | .fuel => ∃ s', s.Ext s' ∧ e.Sound B s' ∧ p (e.backend (false, s')) = .fuel

theorem Simul.bind {e : TtfEnv H} {α β : Type} {m : TM F H α} {p : Backend F → Res α} {I : TtfSt F H → α → Prop} {s : TtfSt F H}
    {f : α → TM F H β} {g : α → Backend F → Res β} {J : TtfSt F H → β → Prop} (h : Simul e B m p I s)
    (k : ∀ a s', s.Ext s' → e.Sound B s' → I s' a → Simul e B (f a) (g a) J s') :
    Simul e B (m.bind f) (fun be => p be >>= fun a => g a be) J s := by
  unfold Simul at h
  unfold Simul TM.bind
  cases hm : m s with
  | ok q =>
    obtain ⟨a, s'⟩ := q
    rw [hm] at h
    obtain ⟨hx, hs, hc, hi, hp⟩ := h
    have k' := k a s' hx hs hi
    unfold Simul at k'
    simp only [Res.ok_bind]
    cases hf : f a s' with
    | ok q =>
      obtain ⟨b, s''⟩ := q
      rw [hf] at k'
      obtain ⟨kx, ks, kc, ki, kp⟩ := k'
      refine ⟨hx.trans kx, ks, kc.trans hc, ki, fun b s2 h2 hs2 => ?_⟩
      rw [hp b s2 (kx.trans h2) hs2, Res.ok_bind, kp b s2 h2 hs2]
    | panic q =>
      rw [hf] at k'
      obtain ⟨s'', kx, ks, kp⟩ := k'
      exact ⟨s'', hx.trans kx, ks, by rw [hp false s'' kx ks, Res.ok_bind, kp]⟩
    | fuel =>
      rw [hf] at k'
      obtain ⟨s'', kx, ks, kp⟩ := k'
      exact ⟨s'', hx.trans kx, ks, by rw [hp false s'' kx ks, Res.ok_bind, kp]⟩
  | panic q =>
    rw [hm] at h
    obtain ⟨s', kx, ks, kp⟩ := h
    exact ⟨s', kx, ks, by show (p _ >>= _) = _; rw [kp]; rfl⟩
  | fuel =>
    rw [hm] at h
    obtain ⟨s', kx, ks, kp⟩ := h
    exact ⟨s', kx, ks, by show (p _ >>= _) = _; rw [kp]; rfl⟩

theorem Simul.ret {e : TtfEnv H} {α : Type} {a : α} {p : Backend F → Res α} {I : TtfSt F H → α → Prop} {s : TtfSt F H}
    (hs : e.Sound B s) (hi : I s a) (hp : ∀ s, p (e.backend s) = .ok a) : Simul e B (.ret a) p I s :=
  ⟨.refl s, hs, rfl, hi, fun b s2 _ _ => hp (b, s2)⟩

theorem Simul.lift {e : TtfEnv H} {α : Type} {r : Res α} {p : Backend F → Res α} {I : TtfSt F H → α → Prop} {s : TtfSt F H}
    (hs : e.Sound B s) (hi : ∀ a, r = .ok a → I s a) (hp : ∀ s, p (e.backend s) = r) : Simul e B (.lift r) p I s := by
  unfold Simul TM.lift
  cases r with
  | ok a => exact ⟨.refl s, hs, rfl, hi a rfl, fun b s2 _ _ => hp (b, s2)⟩
  | panic q => exact ⟨s, .refl s, hs, hp (false, s)⟩
  | fuel => exact ⟨s, .refl s, hs, hp (false, s)⟩

theorem Simul.congr {e : TtfEnv H} {α : Type} {m : TM F H α} {p p' : Backend F → Res α} {I J : TtfSt F H → α → Prop} {s : TtfSt F H}
    (h : Simul e B m p I s) (hp : ∀ s, p' (e.backend s) = p (e.backend s)) (hi : ∀ s' a, s.Ext s' → I s' a → J s' a) :
    Simul e B m p' J s := by
  unfold Simul at *
  cases hm : m s with
  | ok q =>
    rw [hm] at h
    obtain ⟨hx, hs, hc, h1, h2⟩ := h
    exact ⟨hx, hs, hc, hi _ _ hx h1, fun b s2 x y => by rw [hp, h2 b s2 x y]⟩
  | panic q => rw [hm] at h; obtain ⟨s', a, b, c⟩ := h; exact ⟨s', a, b, by rw [hp, c]⟩
  | fuel => rw [hm] at h; obtain ⟨s', a, b, c⟩ := h; exact ⟨s', a, b, by rw [hp, c]⟩

theorem sim_metrics [EqLaws F] (e : TtfEnv H) (c : GoString) (f : Font F) (d : F) (m : Bool) (hm : ModeOk B c f m) (s : TtfSt F H) (hs : e.Sound B s) :
    Simul e B (e.metricsT c f d m) (fun be => if be.known c f d m then .ok (be.metrics c f d m) else .panic (.other "Metrics"))
      (fun s' _ => Cached s' c f d) s := by
  have hlf : e.load c f d m ≠ .fuel := by
    intro h
    unfold TtfEnv.load at h
    rw [Res.bind_eq_fuel] at h
    rcases h with h | ⟨⟨ft, rn⟩, -, h⟩
    · unfold TtfEnv.getGlyph at h
      rw [Res.bind_eq_fuel] at h
      rcases h with h | ⟨i, -, h⟩
      · unfold tex2unicodeIndex at h
        repeat' split at h
        all_goals cases h
      · dsimp only at h; split at h <;> cases h
    · dsimp only at h
      repeat' (split at h <;> try (cases h; done))
      all_goals cases h
  have hsnd : e.Sound B (e.getInfo c f d m s).2 := getInfo_sound e c f d m s hm hs
  have hext := getInfo_ext e c f d m s
  unfold Simul TtfEnv.metricsT
  rcases getInfo_cases e c f d m s with ⟨v, h1, h2⟩ | ⟨h0, v, hl, h2⟩ | ⟨h0, p, hl, h2⟩ | ⟨-, hl, -⟩
  · have hm : e.metrics c f d m s = (.ok v.metrics, s) := by unfold TtfEnv.metrics; rw [h2]
    rw [hm]
    refine ⟨.refl s, hs, rfl, .inr ⟨v, h1⟩, fun b s2 hx hs2 => ?_⟩
    have : e.metrics c f d m s2 = (.ok v.metrics, s2) := by
      unfold TtfEnv.metrics TtfEnv.getInfo; rw [hx _ _ h1]
    simp only [TtfEnv.backend, this, hx _ _ h1, Option.isSome_some, Bool.or_true, Bool.true_or, Bool.and_self, if_true]
  · have hm : e.metrics c f d m s = (.ok (answer ⟨c, f, d⟩ v).metrics, { s with glyphs := (⟨c, f, d⟩, v) :: s.glyphs }) := by
      unfold TtfEnv.metrics; rw [h2]
    rw [h2] at hsnd hext
    rw [hm]
    refine ⟨hext, hsnd, rfl, ?_, fun b s2 hx hs2 => ?_⟩
    · cases hk : TtfKey.same ⟨c, f, d⟩ ⟨c, f, d⟩ with
      | false => exact .inl hk
      | true => exact .inr ⟨v, by rw [TtfSt.find_cons, if_pos hk]⟩
    · have : ∃ s', e.metrics c f d m s2 = (.ok (answer ⟨c, f, d⟩ v).metrics, s') := by
        cases hk : TtfKey.same ⟨c, f, d⟩ ⟨c, f, d⟩ with
        | false =>
          rcases getInfo_cases e c f d m s2 with ⟨v', k1, k2⟩ | ⟨k0, v', kl, k2⟩ | ⟨k0, p, kl, k2⟩ | ⟨-, kl, -⟩
          · rw [TtfSt.find_nan s2 _ hk] at k1; cases k1
          · rw [hl] at kl; cases kl
            exact ⟨_, by unfold TtfEnv.metrics; rw [k2]⟩
          · rw [hl] at kl; cases kl
          · rw [hl] at kl; cases kl
        | true =>
          have := getInfo_stable e c f d m m s s2 (answer ⟨c, f, d⟩ v) (by rw [h2]) (by rw [h2]; exact hx) hk
          exact ⟨s2, by unfold TtfEnv.metrics; rw [this]⟩
      obtain ⟨s', this⟩ := this
      have hf : ((s2.find ⟨c, f, d⟩).isSome || !TtfKey.same ⟨c, f, d⟩ ⟨c, f, d⟩) = true := by
        cases hk : TtfKey.same ⟨c, f, d⟩ ⟨c, f, d⟩ with
        | false => simp
        | true => rw [hx _ _ (show TtfSt.find _ _ = some v by rw [TtfSt.find_cons, if_pos hk])]; rfl
      simp only [TtfEnv.backend, this, Bool.or_assoc, hf, Bool.or_true, Bool.and_self, if_true]
  · have hm : e.metrics c f d m s = (.panic p, s) := by unfold TtfEnv.metrics; rw [h2]
    rw [hm]
    refine ⟨s, .refl s, hs, ?_⟩
    simp only [TtfEnv.backend, hm, Bool.false_and, Bool.false_eq_true, if_false]
  · exact absurd hl hlf

theorem same_of_eq (c : GoString) (f : Font F) (d : F) (h1 : eq f.size f.size = true) (h2 : eq d d = true) :
    TtfKey.same ⟨c, f, d⟩ ⟨c, f, d⟩ = true := by
  simp only [TtfKey.same, beq_self_eq_true, h1, h2, Bool.and_true]

theorem sim_kern [EqLaws F] (e : TtfEnv H) (hk : e.KernFine) (f1 : Font F) (c1 : GoString) (f2 : Font F) (c2 : GoString) (d : F)
    (s : TtfSt F H) (hs : e.Sound B s) (hd : eq d d = true) (h1 : Cached s c1 f1 d) (h2 : Cached s c2 f2 d) :
    Simul e B (e.kernT f1 c1 f2 c2 d) (fun be => .ok (be.kern f1 c1 f2 c2 d)) (fun _ _ => True) s := by
  have key : ∃ k, ∀ s2, s.Ext s2 → e.Sound B s2 → e.kern f1 c1 f2 c2 d s2 = (.ok k, s2) := by
    by_cases hc : f1.name = f2.name ∧ eq f1.size f2.size = true
    · have q1 := EqLaws.trans _ _ _ hc.2 (EqLaws.symm _ _ hc.2)
      have q2 := EqLaws.trans _ _ _ (EqLaws.symm _ _ hc.2) hc.2
      rcases h1 with h1 | ⟨v1, h1⟩
      · rw [same_of_eq _ _ _ q1 hd] at h1; cases h1
      rcases h2 with h2 | ⟨v2, h2⟩
      · rw [same_of_eq _ _ _ q2 hd] at h2; cases h2
      obtain ⟨k', hk', -⟩ := TtfSt.find_some h1
      obtain ⟨m, -, hl⟩ := hs.loaded _ _ hk'
      have hf := load_font e _ _ _ _ _ hl
      obtain ⟨hh, hf⟩ := Option.ne_none_iff_exists'.1 hf
      refine ⟨match e.lib.kern hh v1.glyph v2.glyph (e.lib.unitsPerEm hh) with | .ok k => ofInt k / ofInt 64 | _ => zero, ?_⟩
      intro s2 hx hs2
      have e1 : e.getInfo c1 f1 d true s2 = (.ok v1, s2) := by unfold TtfEnv.getInfo; rw [hx _ _ h1]
      have e2 : e.getInfo c2 f2 d true s2 = (.ok v2, s2) := by unfold TtfEnv.getInfo; rw [hx _ _ h2]
      unfold TtfEnv.kern
      rw [if_pos hc, e1]
      dsimp only
      rw [e2]
      dsimp only
      rw [hf]
      dsimp only
      cases hkk : e.lib.kern hh v1.glyph v2.glyph (e.lib.unitsPerEm hh) with
      | ok k => rfl
      | notFound => rfl
      | err => exact absurd hkk (hk _ _ _ _)
    · refine ⟨zero, fun s2 _ _ => ?_⟩
      unfold TtfEnv.kern
      rw [if_neg hc]
  obtain ⟨k, key⟩ := key
  unfold Simul TtfEnv.kernT
  rw [key s (.refl s) hs]
  refine ⟨.refl s, hs, rfl, trivial, fun b s2 hx hs2 => ?_⟩
  simp only [TtfEnv.backend, key s2 hx hs2]

/-! ## Boxes -/

mutual
/-- There is no accent in the box. -/
def NoAcc : TNode F → Prop
  | .accent _ => False
  | .list _ _ cs => NoAccs cs
  | _ => True
/-- There is no accent in the boxes. -/
def NoAccs : List (TNode F) → Prop
  | [] => True
  | n :: l => NoAcc n ∧ NoAccs l
end

omit [GoFloat F] in
theorem noAccs_iff (l : List (TNode F)) : NoAccs l ↔ ∀ n ∈ l, NoAcc n := by
  induction l with
  | nil => simp [NoAccs]
  | cons n l ih => simp [NoAccs, ih]

mutual
theorem shrink_noAcc (be : Backend F) : ∀ n : TNode F, NoAcc n → n.shrink be = n.shrink lineBackend ∧ NoAcc (n.shrink lineBackend)
  | .box _, _ => by simp [TNode.shrink, NoAcc]
  | .char _, _ => by simp [TNode.shrink, NoAcc]
  | .accent _, h => h.elim
  | .list _ _ cs, h => by
    have := shrinkAll_noAcc be cs h
    simp [TNode.shrink, NoAcc, this.1, this.2]
  | .rule _, _ => by simp [TNode.shrink, NoAcc]
  | .glue _, _ => by simp [TNode.shrink, NoAcc]
  | .kern _, _ => by simp [TNode.shrink, NoAcc]
theorem shrinkAll_noAcc (be : Backend F) : ∀ l : List (TNode F), NoAccs l →
    shrinkAll be l = shrinkAll lineBackend l ∧ NoAccs (shrinkAll lineBackend l)
  | [], _ => by simp [shrinkAll, NoAccs]
  | n :: l, h => by
    have h1 := shrink_noAcc be n h.1
    have h2 := shrinkAll_noAcc be l h.2
    simp [shrinkAll, NoAccs, h1.1, h1.2, h2.1, h2.2]
end

/-- A box without accents; if it is a character, at the resolution `dpi` and with its glyph cached. -/
def Fine (dpi : F) (s : TtfSt F H) (n : TNode F) : Prop :=
  NoAcc n ∧ ∀ c, n = .char c → c.dpi = dpi ∧ Cached s c.c c.font dpi

theorem Fine.mono {dpi : F} {s s' : TtfSt F H} {n : TNode F} (h : Fine dpi s n) (hx : s.Ext s') : Fine dpi s' n :=
  ⟨h.1, fun c hc => ⟨(h.2 c hc).1, (h.2 c hc).2.mono hx⟩⟩

theorem fine_list (dpi : F) (s : TtfSt F H) (k : LKind) (hd : LHead F) (cs : List (TNode F)) (h : NoAccs cs) :
    Fine dpi s (.list k hd cs) := ⟨h, fun c hc => by cases hc⟩
theorem fine_kern (dpi : F) (s : TtfSt F H) (w : F) : Fine dpi s (newKern w) := ⟨trivial, fun c hc => by cases hc⟩
theorem fine_hbox (dpi : F) (s : TtfSt F H) (w : F) : Fine dpi s (hbox w) := ⟨trivial, fun c hc => by cases hc⟩

theorem sim_newChar [EqLaws F] (e : TtfEnv H) (c : GoString) (st : TState F) (math : Bool) (hm : ModeOk B c st.font math) (s : TtfSt F H) (hs : e.Sound B s) :
    Simul e B (newCharT e c st math) (fun be => newChar be c st math) (fun s' ch => Fine st.dpi s' (.char ch)) s := by
  refine Simul.congr (p := fun be => (if be.known c st.font st.dpi math then Res.ok (be.metrics c st.font st.dpi math)
    else .panic (.other "Metrics")) >>= fun m => .ok ((rawChar c st math).withMetrics m))
    ((sim_metrics e c st.font st.dpi math hm s hs).bind (J := fun s' ch => Fine st.dpi s' (.char ch)) ?_) ?_ (fun _ _ _ h => h)
  · intro m s' hx hs' hc
    refine .ret hs' ⟨trivial, ?_⟩ (fun _ => rfl)
    intro ch hch
    cases hch
    exact ⟨rfl, hc⟩
  · intro s'
    unfold newChar
    split <;> rfl

/-- the environment is usable and the resolution is a number -/
structure Setup (e : TtfEnv H) (dpi : F) : Prop where
  kern : e.KernFine
  dpi : eq dpi dpi = true

theorem sim_kerning [EqLaws F] (e : TtfEnv H) (dpi : F) (hk : Setup e dpi) (n : TNode F) (next : Option (TNode F))
    (s : TtfSt F H) (hs : e.Sound B s) (hn : Fine dpi s n) (hx : ∀ m, next = some m → Fine dpi s m) :
    Simul e B (n.kerningT e next) (fun be => .ok (n.kerning be next)) (fun _ _ => True) s := by
  cases n with
  | char c =>
    obtain ⟨h1, h2⟩ := hn.2 c rfl
    unfold TNode.kerningT CharD.kerningT
    cases next with
    | none => exact .ret hs trivial (fun _ => rfl)
    | some m =>
      cases m with
      | char c' =>
        obtain ⟨-, h4⟩ := (hx _ rfl).2 c' rfl
        have := sim_kern e hk.kern c.font c.c c'.font c'.c c.dpi s hs (by rw [h1]; exact hk.dpi) (by rw [h1]; exact h2)
          (by rw [h1]; exact h4)
        exact (this.bind (J := fun _ _ => True) (g := fun k _ => .ok (c.metrics.advance - c.width + k))
          (fun k s' _ hs' _ => .ret hs' trivial (fun _ => rfl))).congr (fun _ => rfl) (fun _ _ _ h => h)
      | accent c' => exact ((hx _ rfl).1).elim
      | box _ => exact .ret hs trivial (fun _ => rfl)
      | list _ _ _ => exact .ret hs trivial (fun _ => rfl)
      | rule _ => exact .ret hs trivial (fun _ => rfl)
      | glue _ => exact .ret hs trivial (fun _ => rfl)
      | kern _ => exact .ret hs trivial (fun _ => rfl)
  | accent c => exact hn.1.elim
  | box _ => exact .ret hs trivial (fun _ => rfl)
  | list _ _ _ => exact .ret hs trivial (fun _ => rfl)
  | rule _ => exact .ret hs trivial (fun _ => rfl)
  | glue _ => exact .ret hs trivial (fun _ => rfl)
  | kern _ => exact .ret hs trivial (fun _ => rfl)

theorem sim_insertKerns [EqLaws F] (e : TtfEnv H) (dpi : F) (hk : Setup e dpi) (l : List (TNode F))
    (s : TtfSt F H) (hs : e.Sound B s) (hn : ∀ n ∈ l, Fine dpi s n) :
    Simul e B (insertKernsT e l) (fun be => .ok (insertKerns be l)) (fun _ cs => NoAccs cs) s := by
  induction l generalizing s with
  | nil => exact .ret hs trivial (fun _ => rfl)
  | cons n l ih =>
    unfold insertKernsT
    refine (((sim_kerning e dpi hk n l.head? s hs (hn n List.mem_cons_self) ?_).bind
      (g := fun dist be => Res.ok (insertKerns be l) >>= fun r => .ok (if !eq dist zero then n :: newKern dist :: r else n :: r)) (J := fun _ cs => NoAccs cs) ?_)).congr ?_ (fun _ _ _ h => h)
    · intro m hm
      exact hn m (List.mem_cons_of_mem _ (List.mem_of_head? hm))
    · intro dist s' hx hs' _
      refine (ih s' hs' (fun m hm => (hn m (List.mem_cons_of_mem _ hm)).mono hx)).bind ?_
      intro r s'' hx' hs'' hr
      refine .ret hs'' ?_ (fun _ => rfl)
      have := (hn n List.mem_cons_self).1
      split
      · exact ⟨this, trivial, hr⟩
      · exact ⟨this, hr⟩
    · intro s'
      simp only [insertKerns, Res.ok_bind]

theorem sim_hbody [EqLaws F] (e : TtfEnv H) (dpi : F) (hk : Setup e dpi) (l : List (TNode F))
    (s : TtfSt F H) (hs : e.Sound B s) (hn : ∀ n ∈ l, Fine dpi s n) :
    Simul e B (hbodyT e l) (fun be => .ok (hbody be l)) (fun _ q => NoAccs q.2) s := by
  refine ((sim_insertKerns e dpi hk l s hs hn).bind (g := fun cs _ => .ok (hpack LHead.zero cs zero true, cs)) (J := fun _ q => NoAccs q.2)
    (fun cs s' _ hs' h => .ret hs' h (fun _ => rfl))).congr (fun _ => rfl) (fun _ _ _ h => h)

theorem sim_hlistOf [EqLaws F] (e : TtfEnv H) (dpi : F) (hk : Setup e dpi) (l : List (TNode F))
    (s : TtfSt F H) (hs : e.Sound B s) (hn : ∀ n ∈ l, Fine dpi s n) :
    Simul e B (hlistOfT e l) (fun be => .ok (hlistOf be l true)) (fun s' n => Fine dpi s' n) s := by
  refine ((sim_hbody e dpi hk l s hs hn).bind (g := fun q _ => .ok (.list .h q.1 q.2)) (J := fun s' n => Fine dpi s' n)
    (fun q s' _ hs' h => .ret hs' (fine_list _ _ _ _ _ h) (fun _ => rfl))).congr (fun _ => ?_) (fun _ _ _ h => h)
  simp only [hlistOf, hbody, if_true, Res.ok_bind]

theorem sim_makeSpace [EqLaws F] (e : TtfEnv H) (dpi : F) (st : TState F) (w : F) (s : TtfSt F H) (hs : e.Sound B s) :
    Simul e B (makeSpaceT e st w) (fun be => makeSpace be st w) (fun s' n => Fine dpi s' n) s := by
  refine ((sim_metrics e bs!"m" { st.font with name := bs!"it", typ := mathDefault } st.dpi true (modeOk_math _ _ _) s hs).bind
    (g := fun m _ => .ok (newKern (m.advance * w))) (J := fun s' n => Fine dpi s' n)
    (fun m s' _ hs' _ => .ret hs' (fine_kern _ _ _) (fun _ => rfl))).congr (fun _ => ?_) (fun _ _ _ h => h)
  unfold makeSpace
  dsimp only
  split <;> rfl

theorem Simul.pan {e : TtfEnv H} {α : Type} {q : Panic} {p : Backend F → Res α} {I : TtfSt F H → α → Prop} {s : TtfSt F H}
    (hs : e.Sound B s) (hp : ∀ s, p (e.backend s) = .panic q) : Simul e B (.lift (.panic q)) p I s :=
  .lift hs (fun _ h => by cases h) hp

theorem sim_handleSymbol [EqLaws F] (e : TtfEnv H) (x : GoString) (pos : Nat) (sym : GoString) (st : TState F) (math : Bool)
    (hm : ModeOk B sym st.font math) (hk : Setup e st.dpi) (s : TtfSt F H) (hs : e.Sound B s) :
    Simul e B (handleSymbolT e x pos sym st math) (fun be => handleSymbol be x pos sym st math) (fun s' n => Fine st.dpi s' n) s := by
  unfold handleSymbolT handleSymbol
  refine (sim_newChar e sym st math hm s hs).bind ?_
  intro ch s1 hx1 hs1 hc
  dsimp only
  generalize isSpaced sym = b1
  generalize (setHas (newSet symBinaryOperators) sym && (prevChar (x.take pos) == bs!"{" ||
    setHas (newSet symLeftDelim) (prevChar (x.take pos)))) = b2
  generalize setHas (newSet symPunctuationSymbols) sym = b3
  generalize dotInNumber x (indexDot (x.drop pos)) = b4
  split
  · split
    · exact .ret hs1 hc (fun _ => rfl)
    · refine (sim_makeSpace e st.dpi st _ s1 hs1).bind ?_
      intro k1 s2 hx2 hs2 h1
      refine (sim_makeSpace e st.dpi st _ s2 hs2).bind ?_
      intro k2 s3 hx3 hs3 h2
      refine sim_hlistOf e st.dpi hk _ s3 hs3 ?_
      intro n hn
      simp only [List.mem_cons, List.not_mem_nil, or_false] at hn
      rcases hn with rfl | rfl | rfl
      · exact h1.mono hx3
      · exact hc.mono (hx2.trans hx3)
      · exact h2
  · split
    · split
      · split
        · exact .ret hs1 hc (fun _ => rfl)
        · refine (sim_makeSpace e st.dpi st _ s1 hs1).bind ?_
          intro k s2 hx2 hs2 h1
          refine sim_hlistOf e st.dpi hk _ s2 hs2 ?_
          intro n hn
          simp only [List.mem_cons, List.not_mem_nil, or_false] at hn
          rcases hn with rfl | rfl
          · exact hc.mono hx2
          · exact h1
      · exact .pan hs1 (fun _ => rfl)
    · exact .ret hs1 hc (fun _ => rfl)

theorem sim_handleSpace [EqLaws F] (e : TtfEnv H) (dpi : F) (name : GoString) (st : TState F) (s : TtfSt F H) (hs : e.Sound B s) :
    Simul e B (handleSpaceT e name st) (fun be => handleSpace be name st) (fun s' n => Fine dpi s' n) s := by
  unfold handleSpaceT handleSpace
  cases spaceWidth.lookup name with
  | some w => exact sim_makeSpace e dpi st _ s hs
  | none => exact .pan hs (fun _ => rfl)

theorem sim_newChars [EqLaws F] (e : TtfEnv H) (st : TState F) (math : Bool) (l : List Ch) (hm : ∀ c ∈ l, ModeOk B (runeStr c) st.font math) (s : TtfSt F H) (hs : e.Sound B s) :
    Simul e B (newCharsT e st math l) (fun be => newChars be st math l) (fun s' r => ∀ n ∈ r, Fine st.dpi s' n) s := by
  induction l generalizing s with
  | nil => exact .ret hs (by simp) (fun _ => rfl)
  | cons c l ih =>
    unfold newCharsT
    simp only [newChars]
    refine (sim_newChar e _ st math (hm c List.mem_cons_self) s hs).bind ?_
    intro ch s1 hx1 hs1 hc
    refine (ih (fun c hc => hm c (List.mem_cons_of_mem _ hc)) s1 hs1).bind ?_
    intro r s2 hx2 hs2 hr
    refine .ret hs2 ?_ (fun _ => rfl)
    intro n hn
    rcases List.mem_cons.1 hn with rfl | hn
    · exact hc.mono hx2
    · exact hr n hn

theorem sim_literalChars [EqLaws F] (e : TtfEnv H) (x : GoString) (st : TState F) (math : Bool) (hk : Setup e st.dpi) (l : List Ch) (hm : ∀ c ∈ l, ModeOk B (runeStr c) st.font math)
    (s : TtfSt F H) (hs : e.Sound B s) :
    Simul e B (literalCharsT e x st math l) (fun be => literalChars be x st math l) (fun s' r => ∀ n ∈ r, Fine st.dpi s' n) s := by
  induction l generalizing s with
  | nil => exact .ret hs (by simp) (fun _ => rfl)
  | cons c l ih =>
    unfold literalCharsT
    simp only [literalChars]
    refine (sim_handleSymbol e x 0 _ st math (hm c List.mem_cons_self) hk s hs).bind ?_
    intro ch s1 hx1 hs1 hc
    refine (ih (fun c hc => hm c (List.mem_cons_of_mem _ hc)) s1 hs1).bind ?_
    intro r s2 hx2 hs2 hr
    refine .ret hs2 ?_ (fun _ => rfl)
    intro n hn
    rcases List.mem_cons.1 hn with rfl | hn
    · exact hc.mono hx2
    · exact hr n hn

theorem sim_handleFunction [EqLaws F] (e : TtfEnv H) (name : GoString) (st : TState F) (math : Bool) (hm : ∀ c, c ≠ radicalSign → ModeOk B c st.font math) (hk : Setup e st.dpi)
    (s : TtfSt F H) (hs : e.Sound B s) :
    Simul e B (handleFunctionT e name st math) (fun be => handleFunction be name st math) (fun s' n => Fine st.dpi s' n) s := by
  unfold handleFunctionT handleFunction
  refine (sim_newChars e (st.withType bs!"rm") math _ (fun c hc => (hm _ (runeStr_ne (decode_ok _ c hc))).rm) s hs).bind ?_
  intro l s1 hx1 hs1 hl
  exact sim_hlistOf e st.dpi hk l s1 hs1 hl

theorem sim_autoHeightBody [EqLaws F] (e : TtfEnv H) (c : GoString) (height depth : F) (st : TState F) (factor : F)
    (hk : Setup e st.dpi) (s : TtfSt F H) (hs : e.Sound B s) :
    Simul e B (autoHeightBodyT e c height depth st factor) (fun be => autoHeightBody be c height depth st factor)
      (fun s' n => Fine st.dpi s' n) s := by
  unfold autoHeightBodyT autoHeightBody
  refine (sim_newChar e c st true (modeOk_math _ _ _) s hs).bind ?_
  intro ch s1 hx1 hs1 hc
  dsimp only
  split
  · refine (sim_newChar e c _ true (modeOk_math _ _ _) s1 hs1).bind ?_
    intro ch' s2 hx2 hs2 hc'
    refine ((sim_hbody e st.dpi hk [.char ch'] s2 hs2 ?_).bind
      (g := fun q _ => .ok (.list .h { q.1 with shift := depth - ch'.depth } q.2)) ?_).congr (fun _ => rfl) (fun _ _ _ h => h)
    · intro n hn
      simp only [List.mem_cons, List.not_mem_nil, or_false] at hn
      rw [hn]; exact hc'
    · intro q s3 _ hs3 hq
      exact .ret hs3 (fine_list _ _ _ _ _ hq) (fun _ => rfl)
  · refine ((sim_hbody e st.dpi hk [.char ch] s1 hs1 ?_).bind
      (g := fun q _ => .ok (.list .h { q.1 with shift := zero } q.2)) ?_).congr (fun _ => rfl) (fun _ _ _ h => h)
    · intro n hn
      simp only [List.mem_cons, List.not_mem_nil, or_false] at hn
      rw [hn]; exact hc
    · intro q s3 _ hs3 hq
      exact .ret hs3 (fine_list _ _ _ _ _ hq) (fun _ => rfl)

theorem sim_autoHeightChar [EqLaws F] (e : TtfEnv H) (c : GoString) (height depth : F) (st : TState F) (factor : F)
    (hk : Setup e st.dpi) (s : TtfSt F H) (hs : e.Sound B s) :
    Simul e B (autoHeightCharT e c height depth st factor) (fun be => autoHeightChar be c height depth st factor)
      (fun s' n => Fine st.dpi s' n) s := by
  have hb : ∀ q, autoHeightChar (e.backend q) c height depth st factor =
      if e.xheightOk st.font then autoHeightBody (e.backend q) c height depth st factor else .panic (.other "XHeight") := by
    intro q
    unfold autoHeightChar
    show (match (if e.xheightOk st.font then some zero else none : Option F) with | none => _ | some _ => _) = _
    cases e.xheightOk st.font <;> rfl
  have h := sim_autoHeightBody e c height depth st factor hk s hs
  unfold autoHeightCharT
  unfold Simul at h ⊢
  simp only [hb]
  cases e.xheightOk st.font with
  | false => exact ⟨s, .refl s, hs, rfl⟩
  | true => exact h

theorem sim_autoSizedDelimiter [EqLaws F] (e : TtfEnv H) (left : GoString) (middle : List (TNode F)) (right : GoString)
    (st : TState F) (hk : Setup e st.dpi) (s : TtfSt F H) (hs : e.Sound B s) (hm : ∀ n ∈ middle, Fine st.dpi s n) :
    Simul e B (autoSizedDelimiterT e left middle right st) (fun be => autoSizedDelimiter be left middle right st)
      (fun s' n => Fine st.dpi s' n) s := by
  unfold autoSizedDelimiterT autoSizedDelimiter
  refine (sim_autoHeightChar e left _ _ st zero hk s hs).bind ?_
  intro l s1 hx1 hs1 hl
  refine (sim_autoHeightChar e right _ _ st zero hk s1 hs1).bind ?_
  intro r s2 hx2 hs2 hr
  refine sim_hlistOf e st.dpi hk _ s2 hs2 ?_
  intro n hn
  simp only [List.cons_append, List.mem_cons, List.mem_append, List.not_mem_nil, or_false] at hn
  rcases hn with rfl | hn | rfl
  · exact hl.mono hx2
  · exact (hm n hn).mono (hx1.trans hx2)
  · exact hr

theorem sim_genfrac [EqLaws F] (e : TtfEnv H) (delims : Bool) (rule : F) (display : Bool) (num den : TNode F)
    (st : TState F) (hk : Setup e st.dpi) (s : TtfSt F H) (hs : e.Sound B s) (h1 : NoAcc num) (h2 : NoAcc den) :
    Simul e B (genfracT e delims rule display num den st) (fun be => genfrac be delims rule display num den st)
      (fun s' n => Fine st.dpi s' n) s := by
  have hnum : NoAcc (if display then num else num.shrink lineBackend) := by
    split
    · exact h1
    · exact (shrink_noAcc lineBackend num h1).2
  have hden : NoAcc (if display then den else den.shrink lineBackend) := by
    split
    · exact h2
    · exact (shrink_noAcc lineBackend den h2).2
  have key : ∀ (n d : TNode F), NoAcc n → NoAcc d → Simul e B
      (let thickness := ttfUnderline st.font st.dpi
       let width := GoFloat.max n.width d.width
       let cnum := centredTo n width
       let cden := centredTo d width
       let sp : TNode F := vbox zero (thickness * ofInt 2)
       let cs : List (TNode F) := [.list .h cnum.1 cnum.2, sp, hrule lineBackend st rule, sp, .list .h cden.1 cden.2]
       (TM.lift (vpack LHead.zero cs zero true inf)).bind fun hd =>
         (e.metricsT bs!"=" (st.withType mathDefault).font st.dpi true).bind fun m =>
           let shift := cden.1.box.height - ((m.ymax + m.ymin) / ofInt 2 - ofInt 3 * thickness)
           (hlistOfT e [.list .v (hd.setShift shift) cs, hbox (ofInt 2 * thickness)]).bind fun box =>
             if delims then autoSizedDelimiterT e bs!"(" [box] bs!")" st else .ret box)
      (fun be =>
       let thickness := ttfUnderline st.font st.dpi
       let width := GoFloat.max n.width d.width
       let cnum := centredTo n width
       let cden := centredTo d width
       let sp : TNode F := vbox zero (thickness * ofInt 2)
       let cs : List (TNode F) := [.list .h cnum.1 cnum.2, sp, hrule lineBackend st rule, sp, .list .h cden.1 cden.2]
       vpack LHead.zero cs zero true inf >>= fun hd =>
         (if be.known bs!"=" (st.withType mathDefault).font st.dpi true then
           Res.ok (be.metrics bs!"=" (st.withType mathDefault).font st.dpi true) else .panic (.other "Metrics")) >>= fun m =>
           let shift := cden.1.box.height - ((m.ymax + m.ymin) / ofInt 2 - ofInt 3 * thickness)
           Res.ok (hlistOf be [.list .v (hd.setShift shift) cs, hbox (ofInt 2 * thickness)] true) >>= fun box =>
             if delims then autoSizedDelimiter be bs!"(" [box] bs!")" st else .ok box)
      (fun s' n => Fine st.dpi s' n) s := by
    intro n d hn hd
    dsimp only
    refine Simul.bind (I := fun _ _ => True) (.lift hs (fun _ _ => trivial) (fun _ => rfl)) ?_
    intro vh s1 hx1 hs1 _
    refine (sim_metrics e _ _ _ _ (modeOk_math _ _ _) s1 hs1).bind ?_
    intro m s2 hx2 hs2 _
    refine (sim_hlistOf e st.dpi hk _ s2 hs2 ?_).bind ?_
    · intro y hy
      simp only [List.mem_cons, List.not_mem_nil, or_false] at hy
      rcases hy with rfl | rfl
      · refine fine_list _ _ _ _ _ ?_
        simp only [NoAccs, NoAcc, centredTo, vbox, hrule, newRule, hn, hd, and_self]
      · exact fine_hbox _ _ _
    · intro box s3 hx3 hs3 hb
      split
      · refine sim_autoSizedDelimiter e _ _ _ st hk s3 hs3 ?_
        intro y hy
        simp only [List.mem_cons, List.not_mem_nil, or_false] at hy
        rw [hy]; exact hb
      · exact .ret hs3 hb (fun _ => rfl)
  refine (key _ _ hnum hden).congr (fun s' => ?_) (fun _ _ _ h => h)
  unfold genfrac
  rw [(shrink_noAcc (e.backend s') num h1).1, (shrink_noAcc (e.backend s') den h2).1]
  have hr : hrule (e.backend s') st rule = hrule lineBackend st rule := rfl
  rw [hr]
  have hu : (e.backend s').underline = ttfUnderline := rfl
  rw [hu]
  dsimp only
  congr 1
  funext vh
  split <;> rfl

end Verif
