import Verif.Spec.Ttf
/-! # The glyph cache -/

namespace Verif
open GoFloat Spec
variable {F H : Type} [GoFloat F]

theorem TtfKey.same_symm [EqLaws F] {a b : TtfKey F} (h : a.same b = true) : b.same a = true := by
  simp only [TtfKey.same, Bool.and_eq_true, beq_iff_eq] at *
  obtain ⟨⟨⟨⟨h1, h2⟩, h3⟩, h4⟩, h5⟩ := h
  exact ⟨⟨⟨⟨h1.symm, h2.symm⟩, h3.symm⟩, EqLaws.symm _ _ h4⟩, EqLaws.symm _ _ h5⟩

theorem TtfKey.same_trans [EqLaws F] {a b c : TtfKey F} (h : a.same b = true) (h' : b.same c = true) :
    a.same c = true := by
  simp only [TtfKey.same, Bool.and_eq_true, beq_iff_eq] at *
  obtain ⟨⟨⟨⟨h1, h2⟩, h3⟩, h4⟩, h5⟩ := h
  obtain ⟨⟨⟨⟨k1, k2⟩, k3⟩, k4⟩, k5⟩ := h'
  exact ⟨⟨⟨⟨h1.trans k1, h2.trans k2⟩, h3.trans k3⟩, EqLaws.trans _ _ _ h4 k4⟩, EqLaws.trans _ _ _ h5 k5⟩

/-- A key found is equal to itself. -/
theorem TtfKey.same_self [EqLaws F] {a b : TtfKey F} (h : a.same b = true) : b.same b = true :=
  TtfKey.same_trans (TtfKey.same_symm h) h

/-- What was cached stays cached. -/
def TtfSt.Ext (s s' : TtfSt F H) : Prop := ∀ k v, s.find k = some v → s'.find k = some v

theorem TtfSt.Ext.refl (s : TtfSt F H) : s.Ext s := fun _ _ h => h
theorem TtfSt.Ext.trans {a b c : TtfSt F H} (h : a.Ext b) (h' : b.Ext c) : a.Ext c := fun k v q => h' k v (h k v q)
theorem TtfSt.Ext.of_glyphs {a b : TtfSt F H} (h : a.glyphs = b.glyphs) : a.Ext b := by
  intro k v q; simpa only [TtfSt.find, h] using q

theorem TtfSt.find_some {s : TtfSt F H} {k : TtfKey F} {v : TtfVal F H} (h : s.find k = some v) :
    ∃ k', (k', v) ∈ s.glyphs ∧ k'.same k = true := by
  unfold TtfSt.find at h
  simp only [Option.map_eq_some_iff] at h
  obtain ⟨q, hq, rfl⟩ := h
  exact ⟨q.1, List.mem_of_find?_eq_some hq, by simpa using List.find?_some hq⟩

theorem TtfSt.find_none {s : TtfSt F H} {k k' : TtfKey F} {v : TtfVal F H} (h : s.find k = none) (hm : (k', v) ∈ s.glyphs) :
    k'.same k = false := by
  unfold TtfSt.find at h
  simp only [Option.map_eq_none_iff, List.find?_eq_none] at h
  simpa using h _ hm

theorem TtfSt.find_cons (s : TtfSt F H) (k k' : TtfKey F) (v : TtfVal F H) :
    TtfSt.find { s with glyphs := (k, v) :: s.glyphs } k' = if k.same k' then some v else s.find k' := by
  unfold TtfSt.find
  simp only [List.find?_cons]
  cases h : k.same k' <;> simp

theorem TtfSt.ext_cons [EqLaws F] (s : TtfSt F H) (k : TtfKey F) (v : TtfVal F H) (h : s.find k = none) :
    s.Ext { s with glyphs := (k, v) :: s.glyphs } := by
  intro k' v' h'
  rw [TtfSt.find_cons]
  split
  · next hs =>
    obtain ⟨q, hq, hqs⟩ := TtfSt.find_some h'
    have := TtfSt.find_none h hq
    rw [TtfKey.same_trans hqs (TtfKey.same_symm hs)] at this
    cases this
  · exact h'

/-- A key not equal to itself is never found. -/
theorem TtfSt.find_nan [EqLaws F] (s : TtfSt F H) (k : TtfKey F) (h : k.same k = false) : s.find k = none := by
  cases hf : s.find k with
  | none => rfl
  | some v =>
    obtain ⟨q, -, hq⟩ := TtfSt.find_some hf
    rw [TtfKey.same_self hq] at h; cases h

/-- The value returned for a loaded glyph. -/
def answer (k : TtfKey F) (v : TtfVal F H) : TtfVal F H := if k.same k then v else .zero

theorem getInfo_cases [EqLaws F] (e : TtfEnv H) (c : GoString) (f : Font F) (d : F) (m : Bool) (s : TtfSt F H) :
    (∃ v, s.find ⟨c, f, d⟩ = some v ∧ e.getInfo c f d m s = (.ok v, s)) ∨
    (s.find ⟨c, f, d⟩ = none ∧ ∃ v, e.load c f d m = .ok v ∧
      e.getInfo c f d m s = (.ok (answer ⟨c, f, d⟩ v), { s with glyphs := (⟨c, f, d⟩, v) :: s.glyphs })) ∨
    (s.find ⟨c, f, d⟩ = none ∧ ∃ p, e.load c f d m = .panic p ∧ e.getInfo c f d m s = (.panic p, s)) ∨
    (s.find ⟨c, f, d⟩ = none ∧ e.load c f d m = .fuel ∧ e.getInfo c f d m s = (.fuel, s)) := by
  unfold TtfEnv.getInfo
  cases hf : s.find ⟨c, f, d⟩ with
  | some v => exact .inl ⟨v, rfl, rfl⟩
  | none =>
    refine .inr ?_
    cases hl : e.load c f d m with
    | ok v =>
      refine .inl ⟨rfl, v, rfl, ?_⟩
      dsimp only
      rw [TtfSt.find_cons, hf]
      unfold answer
      split <;> rfl
    | panic p => exact .inr (.inl ⟨rfl, p, rfl, rfl⟩)
    | fuel => exact .inr (.inr ⟨rfl, rfl, rfl⟩)

theorem getInfo_ext [EqLaws F] (e : TtfEnv H) (c : GoString) (f : Font F) (d : F) (m : Bool) (s : TtfSt F H) :
    s.Ext (e.getInfo c f d m s).2 := by
  rcases getInfo_cases e c f d m s with ⟨v, -, h⟩ | ⟨h0, v, -, h⟩ | ⟨-, p, -, h⟩ | ⟨-, -, h⟩ <;> rw [h]
  · exact .refl _
  · exact s.ext_cons _ _ h0
  · exact .refl _
  · exact .refl _

/-- Once answered, always answered so, in any mode. -/
theorem getInfo_stable [EqLaws F] (e : TtfEnv H) (c : GoString) (f : Font F) (d : F) (m m' : Bool) (s s' : TtfSt F H)
    (v : TtfVal F H) (h : (e.getInfo c f d m s).1 = .ok v) (hx : (e.getInfo c f d m s).2.Ext s')
    (hk : TtfKey.same ⟨c, f, d⟩ ⟨c, f, d⟩ = true) :
    e.getInfo c f d m' s' = (.ok v, s') := by
  have hf : s'.find ⟨c, f, d⟩ = some v := by
    rcases getInfo_cases e c f d m s with ⟨v', h1, h2⟩ | ⟨h0, v', -, h2⟩ | ⟨-, p, -, h2⟩ | ⟨-, -, h2⟩ <;>
      rw [h2] at h hx
    · cases h; exact hx _ _ h1
    · refine hx _ _ ?_
      rw [TtfSt.find_cons, if_pos hk]
      cases h; simp only [answer, if_pos hk]
    · cases h
    · cases h
  unfold TtfEnv.getInfo
  rw [hf]

theorem metrics_snd (e : TtfEnv H) (c : GoString) (f : Font F) (d : F) (m : Bool) (s : TtfSt F H) :
    (e.metrics c f d m s).2 = (e.getInfo c f d m s).2 := by
  unfold TtfEnv.metrics
  rcases e.getInfo c f d m s with ⟨r, s'⟩
  cases r <;> rfl

theorem renderGlyph_glyphs (e : TtfEnv H) (x y : F) (c : GoString) (f : Font F) (d : F) (s : TtfSt F H) :
    (e.renderGlyph x y f c d s).2.glyphs = (e.getInfo c f d true s).2.glyphs := by
  unfold TtfEnv.renderGlyph
  rcases e.getInfo c f d true s with ⟨r, s'⟩
  cases r <;> rfl

/-- What holds of the glyphs of a state and of those after a request holds after `Kern`. -/
theorem kern_inv (e : TtfEnv H) (P : TtfSt F H → Prop)
    (hp : ∀ s c f d, P s → P (e.getInfo c f d true s).2) (f1 : Font F) (c1 : GoString) (f2 : Font F) (c2 : GoString)
    (d : F) (s : TtfSt F H) (h : P s) : P (e.kern f1 c1 f2 c2 d s).2 := by
  unfold TtfEnv.kern
  split
  · have h1 := hp s c1 f1 d h
    rcases he : e.getInfo c1 f1 d true s with ⟨r1, s1⟩
    rw [he] at h1
    cases r1 with
    | ok v1 =>
      dsimp only
      have h2 := hp s1 c2 f2 d h1
      rcases he2 : e.getInfo c2 f2 d true s1 with ⟨r2, s2⟩
      rw [he2] at h2
      cases r2 with
      | ok v2 =>
        dsimp only
        cases v1.font with
        | none => exact h2
        | some hh =>
          dsimp only
          cases e.lib.kern hh v1.glyph v2.glyph (e.lib.unitsPerEm hh) <;> exact h2
      | panic p => exact h2
      | fuel => exact h2
    | panic p => exact h1
    | fuel => exact h1
  · exact h

theorem run_ext [EqLaws F] (e : TtfEnv H) (call : TtfCall F) (s : TtfSt F H) : s.Ext (call.run e s) := by
  cases call with
  | metrics c f d m => unfold TtfCall.run; dsimp only; rw [metrics_snd]; exact getInfo_ext e c f d m s
  | kern f1 c1 f2 c2 d =>
    exact kern_inv e (fun s' => s.Ext s') (fun s' c f d h => h.trans (getInfo_ext e c f d true s')) f1 c1 f2 c2 d s (.refl s)
  | glyph x y f c d =>
    exact (getInfo_ext e c f d true s).trans (.of_glyphs (renderGlyph_glyphs e x y c f d s).symm)
  | rect a b c d => exact .of_glyphs rfl

theorem runCalls_ext [EqLaws F] (e : TtfEnv H) (l : List (TtfCall F)) (s : TtfSt F H) : s.Ext (runCalls e l s) := by
  induction l generalizing s with
  | nil => exact .refl s
  | cons c l ih => exact (run_ext e c s).trans (ih _)

/-- Every entry was loaded, in one of the modes allowed. -/
def Loaded (e : TtfEnv H) (P : Bool → Prop) (s : TtfSt F H) : Prop :=
  ∀ k v, (k, v) ∈ s.glyphs → ∃ m, P m ∧ e.load k.symbol k.font k.dpi m = .ok v

theorem getInfo_loaded [EqLaws F] (e : TtfEnv H) (P : Bool → Prop) (c : GoString) (f : Font F) (d : F) (m : Bool)
    (s : TtfSt F H) (h : Loaded e P s) (hm : P m) : Loaded e P (e.getInfo c f d m s).2 := by
  rcases getInfo_cases e c f d m s with ⟨v, -, h2⟩ | ⟨h0, v, hl, h2⟩ | ⟨-, p, -, h2⟩ | ⟨-, -, h2⟩ <;> rw [h2]
  · exact h
  · intro k' v' hmem
    rcases List.mem_cons.1 hmem with he | hmem
    · cases he; exact ⟨m, hm, hl⟩
    · exact h _ _ hmem
  · exact h
  · exact h

theorem run_loaded [EqLaws F] (e : TtfEnv H) (P : Bool → Prop) (call : TtfCall F) (s : TtfSt F H) (h : Loaded e P s)
    (hc : ∀ m, TtfCall.asks call m → P m) : Loaded e P (call.run e s) := by
  cases call with
  | metrics c f d m => unfold TtfCall.run; dsimp only; rw [metrics_snd]; exact getInfo_loaded e P c f d m s h (hc m rfl)
  | kern f1 c1 f2 c2 d =>
    exact kern_inv e (Loaded e P) (fun s' c f d h => getInfo_loaded e P c f d true s' h (hc true rfl)) f1 c1 f2 c2 d s h
  | glyph x y f c d =>
    intro k v hkv
    unfold TtfCall.run at hkv
    rw [renderGlyph_glyphs] at hkv
    exact getInfo_loaded e P c f d true s h (hc true rfl) k v hkv
  | rect a b c d => exact h

theorem runCalls_loaded [EqLaws F] (e : TtfEnv H) (P : Bool → Prop) (l : List (TtfCall F)) (s : TtfSt F H) (h : Loaded e P s)
    (hc : ∀ c ∈ l, ∀ m, TtfCall.asks c m → P m) : Loaded e P (runCalls e l s) := by
  induction l generalizing s with
  | nil => exact h
  | cons c l ih =>
    exact ih _ (run_loaded e P c s h (hc c List.mem_cons_self)) (fun c' h' => hc c' (List.mem_cons_of_mem _ h'))

theorem loaded_new (e : TtfEnv H) (P : Bool → Prop) : Loaded e P (TtfSt.new : TtfSt F H) := by
  intro k v h; cases h

end Verif
