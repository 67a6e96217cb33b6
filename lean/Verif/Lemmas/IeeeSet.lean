import Verif.Lemmas.IeeeShip
import Verif.Lemmas.IeeeList
/-! # Lists set to a width in float64 -/

namespace Verif
open GoFloat Spec

/-- The error of any rounding: relative, or half of the smallest number. -/
theorem rnd_err' (r : ℚ) : |rnd r - r| ≤ unit64 * |r| + 2 ^ (-1075 : ℤ) := by
  have hz : (0 : ℚ) < 2 ^ (-1075 : ℤ) := two_zpow_pos _
  rw [rnd_sub]
  rcases eq_or_lt_of_le (abs_nonneg r) with h | h
  · rw [← h, rne_zero, sub_zero, abs_zero, mul_zero, zero_add]; exact hz.le
  by_cases hb : -1074 ≤ Int.log 2 |r| - 52
  · have := rne_rel h hb; linarith only [this, hz]
  · have h1 := rne_err |r|
    have h2 : lastBit |r| = -1074 := max_eq_right (by omega)
    rw [h2] at h1
    have h3 : (2 : ℚ) ^ (-1074 : ℤ) / 2 = 2 ^ (-1075 : ℤ) := by
      rw [show (-1074 : ℤ) = -1075 + 1 by norm_num, zpow_add₀ (by norm_num), zpow_one]; ring
    rw [h3] at h1
    have h4 := mul_nonneg unit64_nonneg (abs_nonneg r)
    linarith only [h1, h4]

/-- Dividing by `t` and multiplying by it again. -/
theorem div_mul_near {X t : ℚ} (ht : t ≠ 0) (hb : |t| < 2 ^ (1024 : ℕ)) :
    |rnd (rnd (X / t) * t) - X| ≤ |X| / 2 ^ 51 + 1 / 2 ^ 50 := by
  have hu := unit64_nonneg
  have h1 := rnd_err' (X / t)
  have h2 := rnd_err' (rnd (X / t) * t)
  have ht0 := abs_nonneg t
  have hz : |t| * (2 : ℚ) ^ (-1075 : ℤ) ≤ 1 / 2 ^ 51 := by
    have e : (2 : ℚ) ^ (1024 : ℕ) * 2 ^ (-1075 : ℤ) = 1 / 2 ^ 51 := by
      rw [← zpow_natCast (2 : ℚ) 1024, ← zpow_add₀ (by norm_num)]
      norm_num
    rw [← e]
    exact mul_le_mul_of_nonneg_right hb.le (two_zpow_pos _).le
  have hs : (2 : ℚ) ^ (-1075 : ℤ) ≤ 1 / 2 ^ 52 := by
    have : (2 : ℚ) ^ (-1075 : ℤ) ≤ 2 ^ (-52 : ℤ) := zpow_le_zpow_right₀ (by norm_num) (by norm_num)
    refine this.trans (le_of_eq ?_)
    norm_num
  have h3 : |rnd (X / t) * t - X| ≤ unit64 * |X| + 1 / 2 ^ 51 := by
    have e : rnd (X / t) * t - X = (rnd (X / t) - X / t) * t := by
      rw [sub_mul, div_mul_cancel₀ _ ht]
    rw [e, abs_mul]
    have := mul_le_mul_of_nonneg_right h1 ht0
    have e2 : (unit64 * |X / t| + 2 ^ (-1075 : ℤ)) * |t| = unit64 * |X| + |t| * 2 ^ (-1075 : ℤ) := by
      rw [abs_div, add_mul, mul_assoc, div_mul_cancel₀ _ (abs_ne_zero.2 ht)]; ring
    rw [e2] at this
    linarith only [this, hz]
  generalize rnd (X / t) * t = y at h2 h3 ⊢
  generalize (2 : ℚ) ^ (-1075 : ℤ) = z at h2 hs
  have h4 : |y| ≤ |X| + (unit64 * |X| + 1 / 2 ^ 51) := by
    have := abs_add_le (y - X) X
    rw [sub_add_cancel] at this
    linarith only [this, h3]
  have h5 : |rnd y - X| ≤ |rnd y - y| + |y - X| := by
    have := abs_add_le (rnd y - y) (y - X)
    rwa [sub_add_sub_cancel] at this
  have hX := abs_nonneg X
  have e : unit64 = 1 / 2 ^ 53 := rfl
  have h6 := mul_le_mul_of_nonneg_left h4 hu
  rw [e] at h6 h3 h2
  norm_num at h6 h3 h2 hs ⊢
  linarith only [h6, h5, h3, h2, hs, hX]

/-- What the glue of a list takes that is set by the rule. -/
theorem glueOffset_near64 {r : LHead F64} {x : F64} {X : ℚ} {cs : List (TNode F64)} (h : GlueRule r x cs) (hx : Num64 x X) (hs : r.sign ≠ 0)
    (hset : Fin64 r.set) (ht : Fin64 (if r.sign = 1 then stretchTotal cs r.order else shrinkTotal cs r.order)) (hX : |X| ≤ 2 ^ 29) :
    |(glueOffset r cs : ℚ) - X| ≤ 1 / 2 + (|X| / 2 ^ 51 + 1 / 2 ^ 50) := by
  obtain ⟨t, ht⟩ := ht
  have hh : GoFloat.eq (if r.sign = 1 then stretchTotal cs r.order else shrinkTotal cs r.order) zero = false ∧
      r.set = x / (if r.sign = 1 then stretchTotal cs r.order else shrinkTotal cs r.order) := by
    unfold GlueRule at h
    split at h
    · exact absurd h.1 hs
    · split at h
      · rcases h with ⟨h1, h2, h3⟩ | ⟨h1, _⟩
        · rw [if_pos h1]; exact ⟨h2.1, h3⟩
        · exact absurd h1 hs
      · rcases h with ⟨h1, h2, h3⟩ | ⟨h1, _⟩
        · rw [h1, if_neg (by decide)]; exact ⟨h2.1, h3⟩
        · exact absurd h1 hs
  obtain ⟨hnz, hse⟩ := hh
  have ht0 : t ≠ 0 := by
    rintro rfl
    rw [← exact64_eq, exact_num ht, exact64_zero, XR.zero_fin] at hnz
    revert hnz
    show ¬ decide ((0 : ℚ) = 0) = false
    simp
  have hdr := div_rounded hx ht ht0
  rw [← hse] at hdr
  obtain ⟨s, hsn⟩ := hset
  have hse' : s = rnd (X / t) := by
    by_cases hc : |rnd (X / t)| < 2 ^ (1024 : ℕ)
    · exact isNum_unique hsn (hdr.1 hc)
    · rw [hdr.2 hc] at hsn; exact hsn.elim
  have htb := (isNum_abs ht).2
  have hnear := div_mul_near (X := X) ht0 htb
  rw [← hse'] at hnear
  have hb : |rnd (s * t)| ≤ 1000000000 := by
    have := abs_add_le (rnd (s * t) - X) X
    rw [sub_add_cancel] at this
    have hX0 := abs_nonneg X
    norm_num at hnear hX ⊢
    linarith only [this, hnear, hX, hX0]
  have hb' : |rnd (s * t)| < 2 ^ (1024 : ℕ) := by
    refine lt_of_le_of_lt hb ?_
    have h2 : (2 : ℚ) ^ (31 : ℕ) < 2 ^ (1024 : ℕ) := pow_lt_pow_right₀ (by norm_num) (by norm_num)
    refine lt_trans ?_ h2
    norm_num
  have hm := mul_num hsn ht hb'
  have hcl : clampQ (rnd (s * t)) = rnd (s * t) := by
    have := abs_le.1 hb
    unfold clampQ
    rw [if_neg (by linarith only [this.1]), if_neg (by linarith only [this.2])]
  have hround : |((round (clamp (r.set * (if r.sign = 1 then stretchTotal cs r.order else shrinkTotal cs r.order))) : ℤ) : ℚ) - X| ≤ 1 / 2 + (|X| / 2 ^ 51 + 1 / 2 ^ 50) := by
    rw [round_num (clampQ_num hm), hcl]
    have h1 := XR.roundQ_near (rnd (s * t))
    have := abs_add_le (((XR.roundQ (rnd (s * t)) : ℤ) : ℚ) - rnd (s * t)) (rnd (s * t) - X)
    rw [sub_add_sub_cancel] at this
    linarith only [this, h1, hnear]
  rw [glueOffset, if_neg hs]
  by_cases h1 : r.sign = 1
  · rw [if_pos h1] at hnz hround ⊢
    rw [if_neg]
    · exact hround
    · intro hall
      have : (gluesOf cs).filter (·.stretchOrder = r.order) = [] := by
        rw [List.filter_eq_nil_iff]; simpa using hall
      rw [stretchTotal, this] at hnz
      revert hnz
      decide +kernel
  · rw [if_neg h1] at hnz hround ⊢
    rw [if_neg]
    · exact hround
    · intro hall
      have : (gluesOf cs).filter (·.shrinkOrder = r.order) = [] := by
        rw [List.filter_eq_nil_iff]; simpa using hall
      rw [shrinkTotal, this] at hnz
      revert hnz
      decide +kernel

variable {N : ℕ} {T R B : ℚ}

/-- The pen of Ship in a horizontal list, in float64: the widths so far, and what the glue has taken. -/
theorem pen_set64 (hT : (1 + unit64) ^ N * T < 2 ^ (1024 : ℕ)) (hN' : N ≤ 2 ^ 52) (hNR : N * R ≤ 2 ^ 50) (hR : 0 ≤ R) {o : Off F64} {hd : LHead F64} {base : F64}
    (hB : hd.sign ≠ 0 → B ≤ T) {q st a q1 st1 a'} (h : HRun o hd base q st a q1 st1 a') {k : ℕ} {A S c : ℚ} {q' : GlueSt XR} {ws : List ℚ}
    (hq : GlueRel R hd k A q q') (hA : A + glueTotal a ≤ B) (hF : ∀ n ∈ a, GlueFin R B hd n) (hws : List.Forall₂ (fun n w => Num64 n.width w) a ws)
    (hst : ErrX k S st.h (.fin (c + q.g))) (hN : k + 3 * a.length ≤ N) (hS : S + (ws.map abs).sum + a.length * (2 * (R + 1)) ≤ T) :
    (∃ q1', GlueRel R hd (k + 3 * a.length) (A + glueTotal a) q1 q1') ∧
      ErrX (k + 3 * a.length) (S + (ws.map abs).sum + a.length * (2 * (R + 1))) st1.h (.fin (c + ws.sum + q1.g)) := by
  induction h generalizing k A S c q' ws with
  | nil =>
    cases hws
    refine ⟨⟨q', hq.mono (by omega) (by rw [glueTotal, add_zero])⟩, ?_⟩
    simpa using hst
  | @cons q st n q2 st2 n' a q3 st3 a' e r ih =>
    cases hws with
    | @cons _ w _ ws hw hws =>
      obtain ⟨e1, -, e3⟩ := hNode_step e
      rw [glueTotal_cons] at hA ⊢
      rw [List.length_cons] at hN hS ⊢
      rw [List.map_cons, List.sum_cons] at hS ⊢
      push_cast at hS
      have hg0 := glueTotal_nonneg a
      have hl0 := leeway_nonneg n
      have hw0 := abs_nonneg w
      have hL : 0 ≤ (a.length : ℚ) * (2 * (R + 1)) := mul_nonneg (Nat.cast_nonneg _) (by linarith only [hR])
      have hS0 : 0 ≤ (ws.map abs).sum := by
        clear hws hS
        induction ws with
        | nil => simp
        | cons y t iht => rw [List.map_cons, List.sum_cons]; exact add_nonneg (abs_nonneg _) iht
      have hSS := err_size hst
      have step : ∃ q2', GlueRel R hd (k + 3) (A + glueLeeway n) q2 q2' ∧
          ErrX (k + 3) (S + |w| + 2 * (R + 1)) st2.h (.fin (c + w + q2.g)) := by
        rw [e3]
        cases n with
        | glue g =>
          have hsz := size64_num hw
          change size64 g.width = |w| at hsz
          obtain ⟨eg, eq⟩ := glue_errD hT hN' hNR ⟨w, hw⟩ (hF _ List.mem_cons_self) hq (by linarith only [hA, hg0]) (by omega) hB
            (by rw [hsz]; split_ifs <;> linarith only [hS, hSS, hS0, hL, hw0, hR])
          refine ⟨_, by rw [e1]; exact eq.mono (by omega) le_rfl, ?_⟩
          obtain ⟨qe, h1, h2⟩ := eg
          have h3 : qe = w - (q'.g : ℚ) + (glueStep (exactHead hd) (exactGlue g) q').2.g := by
            have : (glueStep (exactHead hd) (exactGlue g) q').1 = exact64 g.width - ofInt q'.g + ofInt (glueStep (exactHead hd) (exactGlue g) q').2.g := rfl
            rw [h1, exact_num (show Num64 g.width w from hw), XR.ofInt_fin, XR.ofInt_fin, XR.fin_sub, XR.fin_add] at this
            exact XR.fin.inj this
          have h4 := add_err hT (err_mono hst (by omega : k ≤ k + 2) le_rfl) (err_mono h2 le_rfl (T := |w| + 2 * (R + 1)) (by rw [hsz]; split_ifs <;> linarith only [hR])) (by omega)
            (by linarith only [hS, hSS, hS0, hL, hw0, hR])
          rw [XR.fin_add] at h4
          have e5 : c + (q.g : ℚ) + (qe - ((((glueStep (exactHead hd) (exactGlue g) q').2.g : ℚ) - (glueStep hd g q).2.g) - ((q'.g : ℚ) - q.g))) = c + w + q2.g := by
            rw [h3, e1]
            show _ = c + w + ((glueStep hd g q).2.g : ℚ)
            ring
          rw [e5] at h4
          exact err_mono h4 le_rfl (by linarith only)
        | _ =>
          have e2 : q2 = q := e1
          refine ⟨q', by rw [e2]; exact hq.mono (by omega) (by linarith only [hl0]), ?_⟩
          have h4 := add_err hT hst (err_num ⟨w, hw⟩ k) (by omega) (by rw [size64_num hw]; linarith only [hS, hSS, hS0, hL, hw0, hR])
          rw [exact_num hw, XR.fin_add, size64_num hw] at h4
          rw [e2, show c + w + (q.g : ℚ) = c + q.g + w by ring]
          exact err_mono h4 (by omega) (by linarith only [hR])
      obtain ⟨q2', hq2, hst2⟩ := step
      obtain ⟨⟨q3', f1⟩, f2⟩ := ih hq2 (by linarith only [hA]) (fun m hm => hF m (List.mem_cons_of_mem _ hm)) hws hst2 (by omega) (by linarith only [hS])
      refine ⟨⟨q3', GlueRel.mono (k' := k + 3 * (a.length + 1)) (A' := A + (glueLeeway n + glueTotal a)) f1 (by omega) (by linarith only)⟩, ?_⟩
      rw [List.sum_cons, show c + (w + ws.sum) = c + w + ws.sum by ring]
      exact err_mono (m := k + 3 * (a.length + 1)) f2 (by omega) (by push_cast; linarith only)

theorem abs_sum_nonneg (ws : List ℚ) : 0 ≤ (ws.map abs).sum := by
  induction ws with
  | nil => simp
  | cons y t iht => rw [List.map_cons, List.sum_cons]; exact add_nonneg (abs_nonneg _) iht

theorem natural_err (hT : (1 + unit64) ^ N * T < 2 ^ (1024 : ℕ)) {cs : List (TNode F64)} {ws : List ℚ} (hws : List.Forall₂ (fun n w => Num64 n.width w) cs ws)
    {k : ℕ} {S c : ℚ} {x : F64} (hx : ErrX k S x (.fin c)) (hN : k + cs.length ≤ N) (hS : S + (ws.map abs).sum ≤ T) :
    ErrX (k + cs.length) (S + (ws.map abs).sum) (cs.foldl (fun x n => x + n.width) x) (.fin (c + ws.sum)) := by
  induction hws generalizing k S c x with
  | nil => simpa using hx
  | @cons n w cs ws hw _ ih =>
    rw [List.length_cons] at hN ⊢
    rw [List.map_cons, List.sum_cons] at hS ⊢
    rw [List.sum_cons, List.foldl_cons]
    have h0 := abs_sum_nonneg ws
    have h1 := add_err hT hx (err_num ⟨w, hw⟩ k) (by omega) (by rw [size64_num hw]; linarith only [hS, h0])
    rw [exact_num hw, XR.fin_add, size64_num hw] at h1
    have := ih h1 (by omega) (by linarith only [hS])
    rw [show c + (w + ws.sum) = c + w + ws.sum by ring, show k + (cs.length + 1) = k + 1 + cs.length by omega, show S + (|w| + (ws.map abs).sum) = S + |w| + (ws.map abs).sum by ring]
    exact this

/-- After all glue of a list the variable holds the total. -/
theorem glueRun_total {r : LHead F64} {cs : List (TNode F64)} (hs : r.sign ≠ 0) (h : Fin64 (glueRun r cs .zero).glue) :
    Fin64 (if r.sign = 1 then stretchTotal cs r.order else shrinkTotal cs r.order) := by
  rw [glueRun, glueRun_spec, if_neg hs] at h
  by_cases h1 : r.sign = 1
  · rw [if_pos h1] at h ⊢
    by_cases hall : (gluesOf cs).all (·.stretchOrder ≠ r.order) = true
    · have : (gluesOf cs).filter (·.stretchOrder = r.order) = [] := by
        rw [List.filter_eq_nil_iff]; simpa using hall
      rw [stretchTotal, this]; exact fin_zero64
    · rw [if_neg hall] at h; exact h
  · rw [if_neg h1] at h ⊢
    by_cases hall : (gluesOf cs).all (·.shrinkOrder ≠ r.order) = true
    · have : (gluesOf cs).filter (·.shrinkOrder = r.order) = [] := by
        rw [List.filter_eq_nil_iff]; simpa using hall
      rw [shrinkTotal, this]; exact fin_zero64
    · rw [if_neg hall] at h; exact h

/-- The pen at the end of a list packed to the width `w`. -/
theorem pen_end64 {o : Off F64} {cs : List (TNode F64)} {w : F64} {p : ℚ} (hw : Num64 w p) {ws : List ℚ}
    (hws : List.Forall₂ (fun n w => Num64 n.width w) cs ws) (hR0 : 0 ≤ R) {r : LHead F64} (hrule : GlueRule r (w - naturalWidth cs) cs) (hs : r.sign ≠ 0)
    (hR : TameList R r cs) (hN : N = 4 * cs.length + 9) (hN' : N ≤ 2 ^ 52) (hNR : N * R ≤ 2 ^ 50)
    (hT : T = |p| + (ws.map abs).sum + cs.length * (2 * (R + 1)) + 1) (hT' : T ≤ 2 ^ 28) (hG : glueTotal cs < 2 ^ (1000 : ℕ))
    {st st1 q1 cs'} (hst : st.h = zero) (h : HRun o r zero .zero st cs q1 st1 cs') : Off64 (1 / 2 + N / 2 ^ 52 * T) st1.h p := by
  have hg0 := glueTotal_nonneg cs
  have hW := abs_sum_nonneg ws
  have hp := abs_nonneg p
  have hL : 0 ≤ (cs.length : ℚ) * (2 * (R + 1)) := mul_nonneg (Nat.cast_nonneg _) (by linarith only [hR0])
  have hu := unit64_nonneg
  have hpN := pow_unit64 N hN'
  have hn1 : (N : ℚ) / 2 ^ 52 ≤ 1 := by rw [div_le_one (by positivity)]; exact_mod_cast hN'
  have hbig : (1 + unit64) ^ N * (T + glueTotal cs) < 2 ^ (1024 : ℕ) := by
    have h1 : (1 + unit64) ^ N ≤ 2 := by linarith only [hpN, hn1]
    have h2 : (1 + unit64) ^ N * (T + glueTotal cs) ≤ 2 * (T + glueTotal cs) := mul_le_mul_of_nonneg_right h1 (by linarith only [hT, hg0, hW, hp, hL])
    have h3 : (2 : ℚ) ^ (28 : ℕ) ≤ 2 ^ (1000 : ℕ) := pow_le_pow_right₀ (by norm_num) (by norm_num)
    have h4 : 4 * (2 : ℚ) ^ (1000 : ℕ) < 2 ^ (1024 : ℕ) := by
      have : (2 : ℚ) ^ (1002 : ℕ) < 2 ^ (1024 : ℕ) := pow_lt_pow_right₀ (by norm_num) (by norm_num)
      rw [show (1002 : ℕ) = 1000 + 2 from rfl, pow_add] at this
      rw [show (4 : ℚ) = 2 ^ 2 by norm_num, mul_comm]; exact this
    generalize (2 : ℚ) ^ (1000 : ℕ) = M at h3 h4 hG
    have h5 : T ≤ M := hT'.trans h3
    refine lt_of_le_of_lt ?_ h4
    linarith only [h2, hG, h5]
  have hz : ErrX 0 0 (zero : F64) (.fin 0) := by
    have := err_num fin_zero64 0
    rwa [size_zero64, exact64_zero, XR.zero_fin] at this
  have hgz : (((GlueSt.zero : GlueSt F64).g : ℤ) : ℚ) = 0 := by show ((0 : ℤ) : ℚ) = 0; simp
  obtain ⟨⟨q1', hq1⟩, hpen⟩ := pen_set64 (T := T + glueTotal cs) (B := glueTotal cs) hbig hN' hNR hR0 (fun _ => by linarith only [hT, hW, hp, hL]) h
    (GlueRel.zero hR0 r 0) (by linarith only) (gluesFin hR r rfl rfl) hws (k := 0) (S := 0) (c := 0) (by rw [hgz, add_zero, hst]; exact hz) (by omega)
    (by linarith only [hT, hg0, hp])
  have hnat : ErrX cs.length (ws.map abs).sum (naturalWidth cs) (.fin ws.sum) := by
    have := natural_err hbig hws hz (by omega) (by linarith only [hT, hg0, hp, hL])
    simpa [naturalWidth] using this
  have hsub := sub_err hbig (err_num ⟨p, hw⟩ cs.length) hnat (by omega) (by rw [size64_num hw]; linarith only [hT, hg0, hL])
  rw [exact_num hw, XR.fin_sub, size64_num hw] at hsub
  obtain ⟨X, Y, hX, hXe, hX1, hX2⟩ := hsub
  cases hXe
  obtain ⟨P, Z, hP, hPe, hP1, -⟩ := hpen
  cases hPe
  have hY : (1 + unit64) ^ (cs.length + 1) - 1 ≤ (cs.length + 1 : ℕ) / 2 ^ 52 := pow_unit64 _ (by omega)
  have hP' : (1 + unit64) ^ (0 + 3 * cs.length) - 1 ≤ (0 + 3 * cs.length : ℕ) / 2 ^ 52 := pow_unit64 _ (by omega)
  have hc1 : ((cs.length + 1 : ℕ) : ℚ) / 2 ^ 52 ≤ 1 := by
    rw [div_le_one (by positivity)]; exact_mod_cast (by omega : cs.length + 1 ≤ 2 ^ 52)
  have hYS := mul_le_mul_of_nonneg_right hY (show 0 ≤ |p| + (ws.map abs).sum by linarith only [hp, hW])
  have hY1 := mul_le_mul_of_nonneg_right hc1 (show 0 ≤ |p| + (ws.map abs).sum by linarith only [hp, hW])
  have hXa : |X| ≤ 2 * (|p| + (ws.map abs).sum) := by
    have := abs_add_le (X - (p - ws.sum)) (p - ws.sum)
    rw [sub_add_cancel] at this
    linarith only [this, hX1, hX2, hYS, hY1]
  have hX29 : |X| ≤ 2 ^ 29 := by
    refine hXa.trans ?_
    norm_num at hT' ⊢
    linarith only [hT, hT', hL]
  have hgl := (h.glue).1
  have htot := glueRun_total (cs := cs) hs (by
    rw [← hgl]
    obtain ⟨a, -, ha, -⟩ := (hq1.2 hs).1
    exact ⟨a, ha⟩)
  have hoff := glueOffset_near64 hrule hX hs (hR.glue hs).1 htot hX29
  rw [hgl, glueRun_offset, zero_add] at hP1
  refine ⟨P, hP, ?_⟩
  have hPS := mul_le_mul_of_nonneg_right hP' (show 0 ≤ 0 + (ws.map abs).sum + (cs.length : ℚ) * (2 * (R + 1)) by linarith only [hW, hL])
  have h3 : |P - p| ≤ |P - (ws.sum + (glueOffset r cs : ℚ))| + |(glueOffset r cs : ℚ) - X| + |X - (p - ws.sum)| := by
    have h1 := abs_add_le (P - (ws.sum + (glueOffset r cs : ℚ))) ((glueOffset r cs : ℚ) - X)
    have h2 := abs_add_le (P - (ws.sum + (glueOffset r cs : ℚ)) + ((glueOffset r cs : ℚ) - X)) (X - (p - ws.sum))
    rw [show P - (ws.sum + (glueOffset r cs : ℚ)) + ((glueOffset r cs : ℚ) - X) + (X - (p - ws.sum)) = P - p by ring] at h2
    linarith only [h1, h2]
  have hn0 : (0 : ℚ) ≤ cs.length := Nat.cast_nonneg _
  have e1 : |X| / 2 ^ 51 ≤ 4 * (|p| + (ws.map abs).sum) / 2 ^ 52 := by
    norm_num
    linarith only [hXa]
  have hTY : |p| + (ws.map abs).sum ≤ T := by linarith only [hT, hL]
  have hTS : 0 + (ws.map abs).sum + (cs.length : ℚ) * (2 * (R + 1)) ≤ T := by linarith only [hT, hp]
  have m1 := mul_le_mul_of_nonneg_left hTS (show (0 : ℚ) ≤ ((0 + 3 * cs.length : ℕ) : ℚ) / 2 ^ 52 from div_nonneg (Nat.cast_nonneg _) (by norm_num only))
  have m2 := mul_le_mul_of_nonneg_left hTY (show (0 : ℚ) ≤ ((cs.length + 1 : ℕ) : ℚ) / 2 ^ 52 from div_nonneg (Nat.cast_nonneg _) (by norm_num only))
  have e2 : (1 : ℚ) / 2 ^ 50 ≤ 4 * T / 2 ^ 52 := by
    have : 1 ≤ T := by linarith only [hT, hW, hp, hL]
    norm_num
    linarith only [this]
  have e3 : (N : ℚ) / 2 ^ 52 * T = ((0 + 3 * cs.length : ℕ) : ℚ) / 2 ^ 52 * T + ((cs.length + 1 : ℕ) : ℚ) / 2 ^ 52 * T + 4 * T / 2 ^ 52 + 4 * T / 2 ^ 52 := by
    rw [hN]; push_cast; ring
  have e4 : 4 * (|p| + (ws.map abs).sum) / 2 ^ 52 ≤ 4 * T / 2 ^ 52 := by
    norm_num
    linarith only [hTY]
  linarith only [h3, hP1, hPS, hoff, hX1, hYS, e1, e2, e3, e4, m1, m2]

/-- A finite float64, from a computation. -/
theorem num64_of {x : F64} {q : ℚ} (h : (match x with | .fin s a _ => decide (F64.value s a = q) | _ => false) = true) : Num64 x q := by
  cases x with
  | fin s a _ => exact of_decide_eq_true (p := F64.value s a = q) h
  | inf => cases h
  | nan => cases h

/-- Adding zero to an integer. -/
theorem zero_add_ofInt {n : ℤ} (h : |n| ≤ 2 ^ 53) : (zero : F64) + ofInt n = ofInt n := by
  have hn := num_ofInt h
  have hd : (ofInt n : F64) = F64.ofQ ((n : ℚ) / ((1 : ℕ) : ℚ)) false := rfl
  have key : ∀ y : F64, Num64 y n → (zero : F64) + y = F64.ofQ ((n : ℚ) / ((1 : ℕ) : ℚ)) false := by
    intro y hy
    cases y with
    | fin s a ha =>
      rw [zero64]
      show F64.ofQ (F64.value false 0 + F64.value s a) (false && s) = _
      rw [show F64.value s a = (n : ℚ) from hy]
      show F64.ofQ (0 + (n : ℚ)) false = _
      rw [zero_add, Nat.cast_one, div_one]
    | inf => exact hy.elim
    | nan => exact hy.elim
  rw [key _ hn, hd]

/-- Half of a number, by dividing by `2 * c` and multiplying by `c`, `c` being 1 or -1. -/
theorem half_near {X c : ℚ} (hc : c = 1 ∨ c = -1) :
    |rnd (rnd (X / (2 * c)) * c) - X / 2| ≤ |X| / 2 ^ 52 + 1 / 2 ^ 50 := by
  have hu := unit64_nonneg
  have h1 := rnd_err' (X / (2 * c))
  have h2 := rnd_err' (rnd (X / (2 * c)) * c)
  have hs : (2 : ℚ) ^ (-1075 : ℤ) ≤ 1 / 2 ^ 52 := by
    have : (2 : ℚ) ^ (-1075 : ℤ) ≤ 2 ^ (-52 : ℤ) := zpow_le_zpow_right₀ (by norm_num) (by norm_num)
    refine this.trans (le_of_eq ?_)
    norm_num
  have hca : |c| = 1 := by rcases hc with rfl | rfl <;> norm_num
  have e1 : |X / (2 * c)| = |X| / 2 := by rw [abs_div, abs_mul, hca]; norm_num
  rw [e1] at h1
  have h3 : |rnd (X / (2 * c)) * c - X / 2| ≤ unit64 * (|X| / 2) + 2 ^ (-1075 : ℤ) := by
    have e : rnd (X / (2 * c)) * c - X / 2 = (rnd (X / (2 * c)) - X / (2 * c)) * c := by
      rcases hc with rfl | rfl <;> ring
    rw [e, abs_mul, hca, mul_one]; exact h1
  generalize rnd (X / (2 * c)) * c = y at h2 h3 ⊢
  generalize (2 : ℚ) ^ (-1075 : ℤ) = z at h2 hs h3
  have h4 : |y| ≤ |X| / 2 + (unit64 * (|X| / 2) + z) := by
    have := abs_add_le (y - X / 2) (X / 2)
    rw [sub_add_cancel, abs_div, show |(2 : ℚ)| = 2 by norm_num] at this
    linarith only [this, h3]
  have h5 : |rnd y - X / 2| ≤ |rnd y - y| + |y - X / 2| := by
    have := abs_add_le (rnd y - y) (y - X / 2)
    rwa [sub_add_sub_cancel] at this
  have hX := abs_nonneg X
  have e : unit64 = 1 / 2 ^ 53 := rfl
  have h6 := mul_le_mul_of_nonneg_left h4 hu
  have h7 := mul_le_mul_of_nonneg_left hs hu
  rw [e] at h6 h3 h2 h7
  norm_num at h6 h3 h2 hs h7 ⊢
  linarith only [h6, h5, h3, h2, hs, hX, h7]

/-- The glue at the beginning of a centred list. -/
theorem centred_offset64 {els : List (TNode F64)} (hs : ∀ e ∈ els, isSolid e = true) {r : LHead F64} {x : F64} {X : ℚ} (hx : Num64 x X)
    (h : GlueRule r x (.glue ssGlue :: els ++ [.glue ssGlue])) (hX : |X| ≤ 2 ^ 29) :
    |(glueOffset r [.glue ssGlue] : ℚ) - X / 2| ≤ 1 / 2 + (|X| / 2 ^ 52 + 1 / 2 ^ 50) := by
  have hg : gluesOf (.glue ssGlue :: els ++ [.glue ssGlue]) = gluesOf ([.glue ssGlue, .glue ssGlue] : List (TNode F64)) := by
    have : gluesOf els = [] := by
      rw [gluesOf, List.filterMap_eq_nil_iff]
      intro e he
      have := hs e he
      cases e <;> first | rfl | cases this
    rw [gluesOf, List.cons_append, List.filterMap_cons, List.filterMap_append]
    simp only []
    rw [show els.filterMap _ = [] from this]
    rfl
  have hst : ∀ o, stretchTotal (.glue ssGlue :: els ++ [.glue ssGlue]) o = stretchTotal ([.glue ssGlue, .glue ssGlue] : List (TNode F64)) o := by
    intro o; rw [stretchTotal, hg]; rfl
  have hsh : ∀ o, shrinkTotal (.glue ssGlue :: els ++ [.glue ssGlue]) o = shrinkTotal ([.glue ssGlue, .glue ssGlue] : List (TNode F64)) o := by
    intro o; rw [shrinkTotal, hg]; rfl
  have half : ∀ {t u : F64} {c : ℚ}, c = 1 ∨ c = -1 → Num64 t (2 * c) → Num64 u c → r.set = x / t →
      |((round (clamp (r.set * u)) : ℤ) : ℚ) - X / 2| ≤ 1 / 2 + (|X| / 2 ^ 52 + 1 / 2 ^ 50) := by
    intro t u c hc ht hu hset
    have hc0 : 2 * c ≠ 0 := by rcases hc with rfl | rfl <;> norm_num
    have hX0 := abs_nonneg X
    have hca : |c| = 1 := by rcases hc with rfl | rfl <;> norm_num
    have hbig : ∀ y : ℚ, |y| ≤ 1000000000 → |y| < 2 ^ (1024 : ℕ) := by
      intro y hy
      refine lt_of_le_of_lt hy ?_
      have h2 : (2 : ℚ) ^ (31 : ℕ) < 2 ^ (1024 : ℕ) := pow_lt_pow_right₀ (by norm_num) (by norm_num)
      refine lt_trans ?_ h2
      norm_num
    have e1 : |X / (2 * c)| = |X| / 2 := by rw [abs_div, abs_mul, hca]; norm_num
    have hb1 : |rnd (X / (2 * c))| ≤ 1000000000 := by
      have h1 := rnd_err' (X / (2 * c))
      have hz : (2 : ℚ) ^ (-1075 : ℤ) ≤ 1 := by
        have : (2 : ℚ) ^ (-1075 : ℤ) ≤ 2 ^ (0 : ℤ) := zpow_le_zpow_right₀ (by norm_num) (by norm_num)
        simpa using this
      have := abs_add_le (rnd (X / (2 * c)) - X / (2 * c)) (X / (2 * c))
      rw [sub_add_cancel] at this
      rw [e1] at this h1
      generalize (2 : ℚ) ^ (-1075 : ℤ) = z at h1 hz
      rw [show unit64 = 1 / 2 ^ 53 from rfl] at h1
      norm_num at h1 hX ⊢
      linarith only [this, h1, hX, hX0, hz]
    have hn1 := div_num hx ht hc0 (hbig _ hb1)
    rw [← hset] at hn1
    have hnear := half_near (X := X) hc
    have hb2 : |rnd (rnd (X / (2 * c)) * c)| ≤ 1000000000 := by
      have := abs_add_le (rnd (rnd (X / (2 * c)) * c) - X / 2) (X / 2)
      rw [sub_add_cancel, abs_div, show |(2 : ℚ)| = 2 by norm_num] at this
      norm_num at hnear hX ⊢
      linarith only [this, hnear, hX, hX0]
    have hn2 := mul_num hn1 hu (hbig _ hb2)
    have hcl : clampQ (rnd (rnd (X / (2 * c)) * c)) = rnd (rnd (X / (2 * c)) * c) := by
      have := abs_le.1 hb2
      unfold clampQ
      rw [if_neg (by linarith only [this.1]), if_neg (by linarith only [this.2])]
    rw [round_num (clampQ_num hn2), hcl]
    have h1 := XR.roundQ_near (rnd (rnd (X / (2 * c)) * c))
    have := abs_add_le (((XR.roundQ (rnd (rnd (X / (2 * c)) * c)) : ℤ) : ℚ) - rnd (rnd (X / (2 * c)) * c)) (rnd (rnd (X / (2 * c)) * c) - X / 2)
    rw [sub_add_sub_cancel] at this
    linarith only [this, h1, hnear]
  have hX0 := abs_nonneg X
  unfold GlueRule at h
  split at h
  · rename_i h0
    have hx0 : X = 0 := by
      rw [← exact64_eq, exact_num hx, exact64_zero, XR.zero_fin] at h0
      exact of_decide_eq_true h0
    rw [glueOffset, if_pos h.1, hx0]; norm_num
  · split at h
    · rcases h with ⟨h1, h2, h3⟩ | ⟨_, _, h3⟩
      · have ho : r.order = 1 := by
          by_contra ho
          have := h2.1
          rw [hst] at this
          revert this ho
          generalize r.order = o
          revert o
          decide +kernel
        rw [ho, hst] at h3
        rw [glueOffset, h1, if_neg (by decide), if_pos rfl, ho, if_neg (by decide +kernel)]
        exact half (c := 1) (.inl rfl) (num64_of (by decide +kernel)) (num64_of (by decide +kernel)) h3
      · have := h3 1
        rw [hst] at this
        exact absurd this (by decide +kernel)
    · rcases h with ⟨h1, h2, h3⟩ | ⟨_, _, h3⟩
      · have ho : r.order = 1 := by
          by_contra ho
          have := h2.1
          rw [hsh] at this
          revert this ho
          generalize r.order = o
          revert o
          decide +kernel
        rw [ho, hsh] at h3
        rw [glueOffset, h1, if_neg (by decide), if_neg (by decide), ho, if_neg (by decide +kernel)]
        exact half (c := -1) (.inr rfl) (num64_of (by decide +kernel)) (num64_of (by decide +kernel)) h3
      · have := h3 1
        rw [hsh] at this
        exact absurd this (by decide +kernel)

/-- How far a centred list is moved. -/
theorem centred64 {els : List (TNode F64)} (hs : ∀ e ∈ els, isSolid e = true) {w : F64} {p : ℚ} (hw : Num64 w p) {ws : List ℚ}
    (hws : List.Forall₂ (fun n w => Num64 n.width w) els ws) {r : LHead F64}
    (hrule : GlueRule r (w - naturalWidth (.glue ssGlue :: els ++ [.glue ssGlue])) (.glue ssGlue :: els ++ [.glue ssGlue]))
    {N : ℕ} (hN : N = els.length + 9) (hN' : N ≤ 2 ^ 52) {T : ℚ} (hT : T = |p| + (ws.map abs).sum + 1) (hT' : T ≤ 2 ^ 28) :
    |(glueOffset r [.glue ssGlue] : ℚ) - (p - ws.sum) / 2| ≤ 1 / 2 + N / 2 ^ 52 * T := by
  have hW := abs_sum_nonneg ws
  have hp := abs_nonneg p
  have hu := unit64_nonneg
  have hpN := pow_unit64 N hN'
  have hn1 : (N : ℚ) / 2 ^ 52 ≤ 1 := by rw [div_le_one (by positivity)]; exact_mod_cast hN'
  have hbig : (1 + unit64) ^ N * T < 2 ^ (1024 : ℕ) := by
    have h1 : (1 + unit64) ^ N ≤ 2 := by linarith only [hpN, hn1]
    have h2 : (1 + unit64) ^ N * T ≤ 2 * T := mul_le_mul_of_nonneg_right h1 (by linarith only [hT, hW, hp])
    have h3 : (2 : ℚ) ^ (30 : ℕ) < 2 ^ (1024 : ℕ) := pow_lt_pow_right₀ (by norm_num) (by norm_num)
    refine lt_of_le_of_lt h2 (lt_of_le_of_lt ?_ h3)
    norm_num at hT' ⊢
    linarith only [hT']
  have hz : ErrX 0 0 (zero : F64) (.fin 0) := by
    have := err_num fin_zero64 0
    rwa [size_zero64, exact64_zero, XR.zero_fin] at this
  have hss : Num64 (TNode.width (.glue (ssGlue : GlueD F64))) 0 := num_zero64
  have hws' : List.Forall₂ (fun (n : TNode F64) w => Num64 n.width w) (.glue ssGlue :: els ++ [.glue ssGlue]) (0 :: ws ++ [0]) :=
    .cons hss (List.rel_append hws (.cons hss .nil))
  have hnat := natural_err (k := 0) (S := 0) (c := 0) hbig hws' hz (by simp; omega) (by simp; linarith only [hT, hp])
  have e1 : ((.glue ssGlue :: els ++ [.glue ssGlue] : List (TNode F64))).length = els.length + 2 := by simp
  have e2 : ((0 :: ws ++ [0] : List ℚ).map abs).sum = (ws.map abs).sum := by simp
  have e3 : (0 :: ws ++ [0] : List ℚ).sum = ws.sum := by simp
  rw [e1, e2, e3, zero_add, zero_add, zero_add] at hnat
  have hsub := sub_err hbig (err_num ⟨p, hw⟩ (els.length + 2)) hnat (by omega) (by rw [size64_num hw]; linarith only [hT])
  rw [exact_num hw, XR.fin_sub, size64_num hw] at hsub
  obtain ⟨X, Y, hX, hXe, hX1, hX2⟩ := hsub
  cases hXe
  have hY : (1 + unit64) ^ (els.length + 2 + 1) - 1 ≤ (els.length + 2 + 1 : ℕ) / 2 ^ 52 := pow_unit64 _ (by omega)
  have hc1 : ((els.length + 2 + 1 : ℕ) : ℚ) / 2 ^ 52 ≤ 1 := by
    rw [div_le_one (by positivity)]; exact_mod_cast (by omega : els.length + 2 + 1 ≤ 2 ^ 52)
  have hYS := mul_le_mul_of_nonneg_right hY (show 0 ≤ |p| + (ws.map abs).sum by linarith only [hp, hW])
  have hY1 := mul_le_mul_of_nonneg_right hc1 (show 0 ≤ |p| + (ws.map abs).sum by linarith only [hp, hW])
  have hXa : |X| ≤ 2 * (|p| + (ws.map abs).sum) := by
    have := abs_add_le (X - (p - ws.sum)) (p - ws.sum)
    rw [sub_add_cancel] at this
    linarith only [this, hX1, hX2, hYS, hY1]
  have hX29 : |X| ≤ 2 ^ 29 := by
    refine hXa.trans ?_
    norm_num at hT' ⊢
    linarith only [hT, hT']
  have hoff := centred_offset64 hs hX hrule hX29
  have h3 : |(glueOffset r [.glue ssGlue] : ℚ) - (p - ws.sum) / 2| ≤ |(glueOffset r [.glue ssGlue] : ℚ) - X / 2| + |X - (p - ws.sum)| / 2 := by
    have h1 := abs_add_le ((glueOffset r [.glue ssGlue] : ℚ) - X / 2) ((X - (p - ws.sum)) / 2)
    rw [show (glueOffset r [.glue ssGlue] : ℚ) - X / 2 + (X - (p - ws.sum)) / 2 = (glueOffset r [.glue ssGlue] : ℚ) - (p - ws.sum) / 2 by ring, abs_div (X - (p - ws.sum)),
      show |(2 : ℚ)| = 2 by norm_num] at h1
    exact h1
  have hTY : |p| + (ws.map abs).sum ≤ T := by linarith only [hT]
  have m2 := mul_le_mul_of_nonneg_left hTY (show (0 : ℚ) ≤ ((els.length + 2 + 1 : ℕ) : ℚ) / 2 ^ 52 from div_nonneg (Nat.cast_nonneg _) (by norm_num only))
  have hT1 : 1 ≤ T := by linarith only [hT, hW, hp]
  have e4 : (N : ℚ) / 2 ^ 52 * T = ((els.length + 2 + 1 : ℕ) : ℚ) / 2 ^ 52 * T + 2 * T / 2 ^ 52 + 4 * T / 2 ^ 52 := by
    rw [hN]; push_cast; ring
  have e5 : |X| / 2 ^ 52 ≤ 2 * T / 2 ^ 52 := by
    norm_num
    linarith only [hXa, hTY]
  have e6 : (1 : ℚ) / 2 ^ 50 ≤ 4 * T / 2 ^ 52 := by
    norm_num
    linarith only [hT1]
  have e7 := abs_nonneg (X - (p - ws.sum))
  linarith only [h3, hX1, hYS, m2, hoff, e4, e5, e6, e7]

end Verif
