import Verif.Lemmas.Built
import Verif.Props.Ship
import Verif.Props.Mtex
/-! # C67: what mtex.Parse builds can be shipped -/

namespace Verif.Props
open Verif Verif.Spec GoFloat
variable {F : Type} [GoFloat F]

/-- Laws of zero that hold for `float64`. -/
class ZeroLaws (F : Type) [GoFloat F] : Prop where
  not_pos : GoFloat.pos (zero : F) = false
  not_inf : GoFloat.isInf (zero : F) = false
  shrunk : (zero : F) * ofRat 7 10 = zero

mutual
/-- Boxes that are harmless in a horizontal list of any height, and stay so when shrunk. -/
def safeH : TNode F → Prop
  | .box b => b.height = zero
  | .list .plain _ _ => False
  | .list .h _ cs => safeHs cs
  | .list .v _ cs => safeVs cs
  | _ => True
/-- All of them. -/
def safeHs : List (TNode F) → Prop
  | [] => True
  | n :: l => safeH n ∧ safeHs l
/-- Boxes that are harmless in a vertical list. -/
def safeV : TNode F → Prop
  | .char _ | .accent _ => False
  | .list .h _ cs => safeHs cs
  | .list .v _ cs => safeVs cs
  | .list .plain _ _ => False
  | _ => True
/-- All of them. -/
def safeVs : List (TNode F) → Prop
  | [] => True
  | n :: l => safeV n ∧ safeVs l
end

theorem safeHs_iff {l : List (TNode F)} : safeHs l ↔ ∀ n ∈ l, safeH n := by
  induction l with
  | nil => simp [safeHs]
  | cons n l ih => simp [safeHs, ih]

mutual
theorem safeH_ok [ZeroLaws F] (H : F) : ∀ n : TNode F, safeH n → misplacedH H n = false
  | .box b, h => by
    have h' : b.height = zero := h
    simp [misplacedH, h', ZeroLaws.not_pos, ZeroLaws.not_inf]
  | .list .plain _ _, h => absurd h id
  | .list .h hd cs, h => by rw [misplacedH]; exact safeHs_ok _ cs h
  | .list .v hd cs, h => by rw [misplacedH]; exact safeVs_ok cs h
  | .char _, _ => rfl
  | .accent _, _ => rfl
  | .rule _, _ => rfl
  | .glue _, _ => rfl
  | .kern _, _ => rfl
theorem safeHs_ok [ZeroLaws F] (H : F) : ∀ l : List (TNode F), safeHs l → misplacedHs H l = false
  | [], _ => rfl
  | n :: l, h => by rw [misplacedHs, safeH_ok H n h.1, safeHs_ok H l h.2]; rfl
theorem safeV_ok [ZeroLaws F] : ∀ n : TNode F, safeV n → misplacedV n = false
  | .box b, h => rfl
  | .list .plain _ _, h => absurd h id
  | .list .h hd cs, h => by rw [misplacedV]; exact safeHs_ok _ cs h
  | .list .v hd cs, h => by rw [misplacedV]; exact safeVs_ok cs h
  | .char _, h => absurd h id
  | .accent _, h => absurd h id
  | .rule _, _ => rfl
  | .glue _, _ => rfl
  | .kern _, _ => rfl
theorem safeVs_ok [ZeroLaws F] : ∀ l : List (TNode F), safeVs l → misplacedVs l = false
  | [], _ => rfl
  | n :: l, h => by rw [misplacedVs, safeV_ok n h.1, safeVs_ok l h.2]; rfl
end

mutual
theorem safeH_shrink [ZeroLaws F] (be : Backend F) : ∀ n : TNode F, safeH n → safeH (n.shrink be)
  | .box b, h => by
    have h' : b.height = zero := h
    simp only [TNode.shrink, safeH, BoxD.shrink]
    split
    · show b.height * shrinkFactor = zero
      rw [h']; exact ZeroLaws.shrunk
    · exact h'
  | .list .plain _ _, h => absurd h id
  | .list .h hd cs, h => safeHs_shrink be cs h
  | .list .v hd cs, h => safeVs_shrink be cs h
  | .char _, _ => trivial
  | .accent _, _ => trivial
  | .rule _, _ => trivial
  | .glue _, _ => trivial
  | .kern _, _ => trivial
theorem safeHs_shrink [ZeroLaws F] (be : Backend F) : ∀ l : List (TNode F), safeHs l → safeHs (shrinkAll be l)
  | [], _ => trivial
  | n :: l, h => ⟨safeH_shrink be n h.1, safeHs_shrink be l h.2⟩
theorem safeV_shrink [ZeroLaws F] (be : Backend F) : ∀ n : TNode F, safeV n → safeV (n.shrink be)
  | .box b, h => trivial
  | .list .plain _ _, h => absurd h id
  | .list .h hd cs, h => safeHs_shrink be cs h
  | .list .v hd cs, h => safeVs_shrink be cs h
  | .char _, h => absurd h id
  | .accent _, h => absurd h id
  | .rule _, _ => trivial
  | .glue _, _ => trivial
  | .kern _, _ => trivial
theorem safeVs_shrink [ZeroLaws F] (be : Backend F) : ∀ l : List (TNode F), safeVs l → safeVs (shrinkAll be l)
  | [], _ => trivial
  | n :: l, h => ⟨safeV_shrink be n h.1, safeVs_shrink be l h.2⟩
end

theorem safeHs_kerns (be : Backend F) (l : List (TNode F)) (h : safeHs l) : safeHs (insertKerns be l) := by
  induction l with
  | nil => trivial
  | cons n l ih =>
    rw [insertKerns]
    split
    · exact ⟨h.1, trivial, ih h.2⟩
    · exact ⟨h.1, ih h.2⟩

theorem safe_hlistOf (be : Backend F) (l : List (TNode F)) (h : safeHs l) : safeH (hlistOf be l true) ∧ safeV (hlistOf be l true) := by
  have := safeHs_kerns be l h
  unfold hlistOf
  simp only [if_true]
  exact ⟨this, this⟩

theorem safe_hH {be : Backend F} {l : List (TNode F)} (h : safeHs l) : safeH (hlistOf be l true) := (safe_hlistOf be l h).1
theorem safe_hV {be : Backend F} {l : List (TNode F)} (h : safeHs l) : safeV (hlistOf be l true) := (safe_hlistOf be l h).2

theorem safe_auto {be : Backend F} {c : GoString} {hh d : F} {st : TState F} {k : F} {n : TNode F}
    (h : autoHeightChar be c hh d st k = .ok n) : safeH n := by
  replace h := autoHeightChar_ok h
  unfold autoHeightBody at h
  obtain ⟨ch, hc, h⟩ := Res.bind_eq_ok.1 h
  dsimp only at h
  split at h
  · obtain ⟨ch', hc', h⟩ := Res.bind_eq_ok.1 h
    cases h
    exact safeHs_kerns be _ ⟨trivial, trivial⟩
  · cases h
    exact safeHs_kerns be _ ⟨trivial, trivial⟩

theorem safe_ruled {be : Backend F} {st : TState F} {body : TNode F} {hh d : F} {n : TNode F} (hb : safeV body)
    (h : ruled be st body hh d = .ok n) : safeH n := by
  unfold ruled at h
  obtain ⟨gl, -, h⟩ := Res.bind_eq_ok.1 h
  obtain ⟨hd, -, h⟩ := Res.bind_eq_ok.1 h
  obtain ⟨hd', -, h⟩ := Res.bind_eq_ok.1 h
  cases h
  exact ⟨trivial, trivial, hb, trivial⟩

theorem safe_closed [ZeroLaws F] (be : Backend F) : Closed be (fun _ => True) (fun _ => True) (safeH (F := F)) where
  font _ _ _ := trivial
  const _ _ := trivial
  char _ _ _ _ _ _ := trivial
  space st w n _ _ h := by
    unfold makeSpace at h
    dsimp only at h
    split at h
    · cases h; trivial
    · cases h
  hlist l h := safe_hH (safeHs_iff.2 h)
  frac dl rule ds a b st n _ _ ha hb h := by
    have ha := safe_hH (be := be) (safeHs_iff.2 ha)
    have hb := safe_hH (be := be) (safeHs_iff.2 hb)
    have cen : ∀ (m : TNode F) w, safeH m → safeHs (centredTo m w).2 := fun m w h => ⟨trivial, h, trivial, trivial⟩
    have sh : ∀ m : TNode F, safeH m → safeH (if ds then m else m.shrink be) := by
      intro m h; split
      · exact h
      · exact safeH_shrink be m h
    unfold genfrac at h
    dsimp only at h
    obtain ⟨hd, -, h⟩ := Res.bind_eq_ok.1 h
    split at h
    · have gbox : ∀ hd' w s r k, safeH (hlistOf be [.list .v hd'
          [.list .h (centredTo (if ds then hlistOf be a true else (hlistOf be a true).shrink be) w).1
            (centredTo (if ds then hlistOf be a true else (hlistOf be a true).shrink be) w).2, vbox zero s, hrule be st r, vbox zero s,
           .list .h (centredTo (if ds then hlistOf be b true else (hlistOf be b true).shrink be) w).1
            (centredTo (if ds then hlistOf be b true else (hlistOf be b true).shrink be) w).2], hbox k] true) := by
        intro hd' w s r k
        refine safe_hH ⟨?_, rfl, trivial⟩
        exact ⟨cen _ w (sh _ ha), trivial, trivial, trivial, cen _ w (sh _ hb), trivial⟩
      cases dl
      · simp only [Bool.false_eq_true, if_false, Res.ok.injEq] at h
        subst h
        exact gbox _ _ _ _ _
      · simp only [if_true] at h
        unfold autoSizedDelimiter at h
        dsimp only at h
        obtain ⟨l, hl, h⟩ := Res.bind_eq_ok.1 h
        obtain ⟨r, hr, h⟩ := Res.bind_eq_ok.1 h
        cases h
        exact safe_hH ⟨safe_auto hl, gbox _ _ _ _ _, safe_auto hr, trivial⟩
    · cases h
  sqrt root b st n _ hroot hb h := by
    have hb' := safeHs_kerns be b (safeHs_iff.2 hb)
    unfold buildSqrt at h
    dsimp only at h
    obtain ⟨check, hc, h⟩ := Res.bind_eq_ok.1 h
    obtain ⟨rhs, hr, h⟩ := Res.bind_eq_ok.1 h
    obtain ⟨hd', -, h⟩ := Res.bind_eq_ok.1 h
    cases h
    have gp : safeV (hlistOf be [hbox (ofInt 2 * be.underline st.font st.dpi), .list .h (hbody be b).1 (hbody be b).2,
        hbox (ofInt 2 * be.underline st.font st.dpi)] true) := safe_hV ⟨rfl, hb', rfl, trivial⟩
    have gr := safe_ruled gp hr
    have groot : ∀ r : TNode F, safeH r → safeV (hlistOf be [r] true) := fun r h => safe_hV ⟨h, trivial⟩
    refine safe_hH ⟨⟨?_, trivial⟩, trivial, safe_auto hc, gr, trivial⟩
    refine groot _ ?_
    cases root with
    | none => rfl
    | some r => exact safeH_shrink be _ (safeH_shrink be _ (hroot r rfl))
  over b st n _ hb h := by
    have hb' := safeHs_kerns be b (safeHs_iff.2 hb)
    unfold buildOverline at h
    dsimp only at h
    obtain ⟨rhs, hr, h⟩ := Res.bind_eq_ok.1 h
    cases h
    have gp : safeV (hlistOf be [.list .h (hbody be b).1 (hbody be b).2] true) := safe_hV ⟨hb', trivial⟩
    exact safe_hH ⟨safe_ruled gp hr, trivial⟩

/-- **C67** Whatever mtex.Parse returns can be shipped anywhere: `Ship.Call` returns. -/
theorem C67_shippable [ZeroLaws F] (U : Nat → Bool) (be : Backend F) (num : GoString → Option F) (x : GoString) (size dpi : F)
    (hd : LHead F) (cs : List (TNode F)) (h : mtexParse U be num x size dpi = .ok (hd, cs)) (ox oy : F) :
    ∃ st, shipCall ox oy hd cs = .ok (st, settleHs cs) := by
  obtain ⟨l, hl, e⟩ := (safe_closed be).parse (fun _ _ _ => trivial) trivial h
  refine C51_returns ox oy hd cs (safeHs_ok _ _ ?_)
  have : cs = insertKerns be l := congrArg Prod.snd e
  rw [this]
  exact safeHs_kerns be l (safeHs_iff.2 hl)

instance : ZeroLaws XR where
  not_pos := by decide +kernel
  not_inf := by decide +kernel
  shrunk := by decide +kernel

/-! ## Concrete cases -/

example : ∃ hd cs, mtexParse exU exBe exNum bs!"$\\frac{1}{\\sqrt[3]{x}} + \\overline{\\binom{n}{k}}$" (.fin 10) (.fin 72) = .ok (hd, cs) ∧
    cs.length = 3 := by
  have h : (match exParse bs!"$\\frac{1}{\\sqrt[3]{x}} + \\overline{\\binom{n}{k}}$" with | .ok q => q.2.length == 3 | _ => false) = true := by
    decide +kernel
  unfold exParse at h
  split at h
  · next q hq => exact ⟨q.1, q.2, hq, by simpa using h⟩
  · cases h
end Verif.Props
