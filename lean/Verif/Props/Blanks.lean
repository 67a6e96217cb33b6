import Verif.Props.Operators
import Verif.Props.Render
import Verif.Spec.Blanks
/-! # C79: blanks -/

namespace Verif.Props
open Verif Verif.Spec GoFloat XR

section
variable {F : Type} [GoFloat F]

theorem blank_table : ∀ q ∈ blankMu, ∃ w ∈ spaceWidth, w.1 = q.1 ∧ spaceWidth.lookup q.1 = some w.2 ∧ handlerOf q.1 = some .space ∧
    0 < w.2.2 ∧ (w.2.1 * 18 - q.2 * w.2.2) * 10000 ≤ w.2.2 ∧ -(w.2.2 : Int) ≤ (w.2.1 * 18 - q.2 * w.2.2) * 10000 := by
  decide +kernel

theorem makeSpace_ok {be : Backend F} {st : TState F} {w : F} {n : TNode F} :
    makeSpace be st w = .ok n ↔ EmKnown be st ∧ n = newKern (emWidth be st * w) := by
  unfold makeSpace EmKnown emWidth
  dsimp only
  show (if be.known bs!"m" ⟨bs!"it", bs!"it", st.font.size⟩ st.dpi true = true then _ else _) = _ ↔ _
  split
  · rename_i h
    rw [Res.ok.injEq]
    exact ⟨fun e => ⟨h, e.symm⟩, fun e => e.2.symm⟩
  · rename_i h
    exact ⟨fun e => (by cases e), fun e => absurd e.1 h⟩
end

/-- **C79** A blank, written as a macro or (in math) as a symbol, is set if the letter m can be measured, and then it is
room of its width in eighteenths of an em, with an error of less than a 180000th of an em (exact arithmetic). -/
theorem C79_blank (be : Backend XR) (num : GoString → Option XR) (x : GoString) (st : TState XR) (q : GoString × Int) (hq : q ∈ blankMu) (n : Node) (m : Bool)
    (hn : (∃ p args, n = .macro (some (p, q.1)) args) ∨ (m = true ∧ ∃ p, n = .sym p q.1)) :
    ∃ err : ℚ, |err| ≤ 1 / 180000 ∧ ∀ l, collect be num x st m n = .ok l ↔
      EmKnown be st ∧ ∃ nd, l = [nd] ∧ IsRoom (emWidth be st * .fin (q.2 / 18 + err)) nd := by
  obtain ⟨w, -, -, hw2, hw3, h0, hw4, hw5⟩ := blank_table q hq
  have hc : collect be num x st m n = (makeSpace be st (ofRat w.2.1 w.2.2) >>= fun n => .ok [n]) := by
    rcases hn with ⟨p, args, rfl⟩ | ⟨rfl, p, rfl⟩
    · rw [collect_eq, walkN, visitN, hw3]
      dsimp only [build]
      rw [handleSpace, hw2]
    · rw [collect_eq, walkN, visitN, if_pos rfl, hw3]
      dsimp only [buildSym]
      rw [handleSpace, hw2]
  have hr : (ofRat w.2.1 w.2.2 : XR) = .fin ((w.2.1 : ℚ) / w.2.2) := by show XR.fin _ = _; simp [Rat.mkRat_eq_div]
  have h0' : (0 : ℚ) < w.2.2 := by exact_mod_cast h0
  refine ⟨(w.2.1 : ℚ) / w.2.2 - q.2 / 18, ?_, ?_⟩
  · have e1 : ((w.2.1 * 18 - q.2 * w.2.2) * 10000 : ℚ) ≤ w.2.2 := by exact_mod_cast hw4
    have e2 : (-(w.2.2 : ℚ)) ≤ (w.2.1 * 18 - q.2 * w.2.2) * 10000 := by exact_mod_cast hw5
    have e3 : (w.2.1 : ℚ) / w.2.2 - q.2 / 18 = (w.2.1 * 18 - q.2 * w.2.2) * 10000 / w.2.2 / 180000 := by field_simp; ring
    rw [e3, abs_le]
    constructor
    · rw [le_div_iff₀ (by norm_num), le_div_iff₀ h0']; linarith
    · rw [div_le_iff₀ (by norm_num), div_le_iff₀ h0']; linarith
  · intro l
    rw [hc, hr, show ((q.2 : ℚ) / 18 + ((w.2.1 : ℚ) / w.2.2 - q.2 / 18)) = (w.2.1 : ℚ) / w.2.2 by ring]
    constructor
    · intro h
      obtain ⟨nd, h1, h2⟩ := Res.bind_eq_ok.1 h
      cases h2
      obtain ⟨hk, rfl⟩ := makeSpace_ok.1 h1
      exact ⟨hk, _, rfl, rfl⟩
    · rintro ⟨hk, nd, rfl, rfl⟩
      rw [makeSpace_ok.2 ⟨hk, rfl⟩]
      rfl

section
variable {F : Type} [GoFloat F]

/-- **C79** `\hspace{v}`, where `v` is a number, is room of `v` ems, in every arithmetic; it is not set if its argument
begins with anything but a number. -/
theorem C79_hspace (be : Backend F) (num : GoString → Option F) (x : GoString) (st : TState F) (m : Bool) (p : Nat) (args : List Node) (l : List (TNode F)) :
    collect be num x st m (.macro (some (p, bs!"\\hspace")) args) = .ok l ↔
    EmKnown be st ∧ ∃ a p' t rest b more v nd, args = .arg a (.lit p' t :: rest) b :: more ∧ num t = some v ∧ l = [nd] ∧ IsRoom (emWidth be st * v) nd := by
  have hh : handlerOf bs!"\\hspace" = some .hspace := by decide +kernel
  rw [collect_eq, walkN, visitN, hh]
  dsimp only [build]
  constructor
  · intro h
    obtain ⟨nd, h1, h2⟩ := Res.bind_eq_ok.1 h
    cases h2
    split at h1
    · rename_i a p' t rest b more
      split at h1
      · rename_i v hv
        obtain ⟨hk, rfl⟩ := makeSpace_ok.1 h1
        exact ⟨hk, a, p', t, rest, b, more, v, _, rfl, hv, rfl, rfl⟩
      · cases h1
    · cases h1
  · rintro ⟨hk, a, p', t, rest, b, more, v, nd, rfl, hv, rfl, rfl⟩
    dsimp only
    rw [hv]
    dsimp only
    rw [makeSpace_ok.2 ⟨hk, rfl⟩]
    rfl

/-- **C79** In text, blanks written as symbols are set as glyphs. -/
theorem C79_text (be : Backend F) (num : GoString → Option F) (x : GoString) (st : TState F) (p : Nat) (t : GoString) (l : List (TNode F))
    (h : collect be num x st false (.sym p t) = .ok l) : ∃ n, l = [n] ∧ Bare t n := by
  rw [collect_eq, walkN, visitN, if_neg (by simp)] at h
  obtain ⟨c, h1, h2⟩ := Res.bind_eq_ok.1 h
  cases h2
  refine ⟨_, rfl, c, rfl, ?_⟩
  unfold newChar at h1
  split at h1
  · cases h1; rfl
  · cases h1
end

/-- **C79** Finding: a backslash followed by a blank is room in a formula, but draws a backslash outside. -/
theorem C79_backslash : exRender bs!"a\\ b" = some [bs!"a", bs!"\\", bs!"b"] ∧ exRender bs!"$a\\ b$" = some [bs!"a", bs!"b"] := by decide +kernel

/-! ## Concrete cases -/

example : EmKnown exBe (⟨⟨bs!"default", bs!"rm", .fin 10⟩, .fin 72⟩ : TState XR) := rfl
example : (bs!"\\quad", (18 : Int)) ∈ blankMu := by decide
/-- `$a\quad b$`: two letters and between them one em -/
example : (exNodes bs!"$a\\quad b$").map exKind = [1, 2, 1] := by decide +kernel

end Verif.Props
