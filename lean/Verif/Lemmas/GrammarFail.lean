import Verif.Lemmas.GrammarParse
import Verif.Lemmas.Fail
import Verif.Lemmas.Concat
import Verif.Spec.Errors
/-! # The panics of the parser and the reasons of `Spec/Errors` -/

namespace Verif
open Spec
variable {U : Nat → Bool}

theorem stuck_facts {r : Nat} (h : Stuck U r) : isWs r = false ∧ isLetter U r = false ∧ r ∉ bs!"0123456789\"" ∧ r ≠ ch!"." ∧ r ≠ ch!"\\" ∧ r ≠ ch!" " ∧ r ≠ ch!"%" ∧
    symbolChars.contains r = false ∧ r ≠ ch!"[" ∧ r ≠ ch!"]" ∧ r ≠ ch!"{" ∧ r ≠ ch!"}" ∧ r ≠ ch!"(" ∧ r ≠ ch!")" := by
  obtain ⟨h1, h2, h3⟩ := h
  have h4 : r ∉ bs!"0123456789\"" ∧ r ≠ ch!"\\" ∧ r ≠ ch!" " ∧ r ≠ ch!"%" ∧ r ∉ bs!"\t\n\r" := by
    simp only [List.mem_cons, List.not_mem_nil, not_or, or_false] at h2 ⊢
    omega
  have h5 : r ≠ ch!"." ∧ r ∉ bs!"$_=<>^/*-+!?':,;." ∧ r ≠ ch!"[" ∧ r ≠ ch!"]" ∧ r ≠ ch!"{" ∧ r ≠ ch!"}" ∧ r ≠ ch!"(" ∧ r ≠ ch!")" := by
    unfold marks1 at h3
    simp only [List.mem_cons, List.not_mem_nil, not_or, or_false] at h3 ⊢
    omega
  refine ⟨not_ws h4.2.2.2.2, h1, h4.1, h5.1, h4.2.1, h4.2.2.1, h4.2.2.2.1, ?_, h5.2.2⟩
  rw [← Bool.not_eq_true, symbolChars_iff]
  exact h5.2.1

/-- A character that begins no lexeme makes the scanner panic. -/
theorem stuck_scan {s : SS} {w rest : List Ch} {c : Ch} (hs : s.rest = w ++ c :: rest) (hw : ∀ c ∈ w, isBreak c.r = true) (h : Stuck U c.r) :
    scan U s = .panic (.unhandledToken c.r) := by
  obtain ⟨f1, f2, f3, f4, f5, f6, f7, f8, f9, f10, f11, f12, f13, f14⟩ := stuck_facts h
  obtain ⟨t1, s1, e1, e2, -⟩ := raw_unique (U := U) (ws := isWs) (s := s) (w := w) (a := [c]) (rest := rest) (by simp [hs]) hw
    (fun d hd => by cases hd; exact f1) (char_cls f2 f3 (fun h => absurd h f4))
  have e2' := sameCls_rune e2
  unfold scan
  rw [e1]
  simp only [e2', f5, f6, f7, f8, f9, f10, f11, f12, f13, f14, if_false, Bool.false_eq_true]

/-- The scanner panics at a character that begins no lexeme. -/
theorem scan_stuck {s : SS} {p : Panic} (h : scan U s = .panic p) :
    ∃ w c rest, s.rest = w ++ c :: rest ∧ (∀ c ∈ w, isBreak c.r = true) ∧ Stuck U c.r ∧ p = .unhandledToken c.r := by
  obtain ⟨w, a, hr⟩ := rawScan_lex U isWs s
  unfold scan at h
  generalize rawScan U isWs s = R at h hr
  obtain ⟨t1, s1⟩ := R
  dsimp only at h hr
  have hcls := hr.cls
  cases hc : t1.cls with
  | rune r =>
    rw [hc] at h hcls
    obtain ⟨c, rfl, rfl, h1, h2, h3⟩ := hcls
    have hnw := hr.nows c rfl
    refine ⟨w, c, s1.rest, by rw [hr.rest]; simp, hr.wsw, ?_⟩
    dsimp only at h
    split at h
    · split at h <;> cases h
    rename_i g1
    split at h
    · cases h
    rename_i g2
    split at h
    · obtain ⟨line, s', a, e, -⟩ := scanComment_lex U (s1.rest.length + 1) s1 bs!"%" (by omega)
      rw [e] at h
      cases h
    rename_i g3
    split at h
    · cases h
    rename_i g4
    iterate 6
      split at h
      · cases h
    rename_i g5 g6 g7 g8 g9 g10
    cases h
    refine ⟨⟨h1, ?_, ?_⟩, rfl⟩
    · have : isBreak c.r = false := hnw
      simp only [isBreak, Bool.or_eq_false_iff, beq_eq_false_iff_ne] at this
      simp only [List.mem_cons, List.not_mem_nil, not_or, or_false] at h2 ⊢
      omega
    · rw [symbolChars_iff] at g4
      unfold marks1
      simp only [List.mem_cons, List.not_mem_nil, not_or, or_false] at g4 ⊢
      omega
  | _ => rw [hc] at h; cases h

theorem reads_stuck {s : SS} {r o e : Nat} {L : List Lexed} (h : Reads U s.off s.rest (⟨.wrong r, o, e⟩ :: L)) : scan U s = .panic (.unhandledToken r) ∧ L = [] := by
  generalize hr : s.rest = cs at h
  generalize ho : s.off = off at h
  cases h with
  | stuck h1 h2 => exact ⟨stuck_scan hr h1 h2, rfl⟩
  | more h1 h2 h3 => cases h2

/-- Every text has lexemes up to the first character that begins none. -/
theorem reads_total : ∀ (n : Nat) (s : SS), s.rest.length < n → (∀ c ∈ s.rest, c.Ok) → ∃ L, Reads U s.off s.rest L
  | 0, _, h, _ => by omega
  | n + 1, s, hn, hW => by
    cases h : scan U s with
    | fuel => exact absurd h (scan_ne_fuel U s)
    | panic p =>
      obtain ⟨w, c, rest, h1, h2, h3, -⟩ := scan_stuck h
      exact ⟨_, by rw [h1]; exact .stuck h2 h3⟩
    | ok r =>
      obtain ⟨t, s'⟩ := r
      rcases scan_lexeme (fun c hc => (hW c hc).1) h with ⟨h1, h2, h3, h4⟩ | ⟨h0, w, a, k, h1, h2, h3, h4, h5, h6⟩
      · exact ⟨[], .done h4⟩
      · have ha : a ≠ [] := by
          rintro rfl
          cases h5 with
          | number h => exact number_ne h rfl
        obtain ⟨L, hL⟩ := reads_total n s' (by
          have := congrArg List.length h1
          have := List.length_pos_iff.2 ha
          simp at *
          omega) (fun c hc => hW c (by rw [h1]; simp [hc]))
        rw [h4] at hL
        exact ⟨_, by rw [h1]; exact .more h2 h5 hL⟩

theorem reads_unique {o : Nat} {cs : List Ch} {L L' : List Lexed} (hW : ∀ c ∈ cs, c.Ok) (h : Reads U o cs L) (h' : Reads U o cs L') : L = L' := by
  have stuckEq : ∀ {o : Nat} {cs : List Ch} {r a b : Nat} {L L' : List Lexed}, (∀ c ∈ cs, c.Ok) → Reads U o cs (⟨.wrong r, a, b⟩ :: L) → Reads U o cs L' → ⟨.wrong r, a, b⟩ :: L = L' := by
    intro o cs r a b L L' hW h h'
    have hs := (reads_stuck (s := ⟨cs, o⟩) h).1
    cases h' with
    | done hw =>
      obtain ⟨t, s1, e1, -⟩ := done_scan (U := U) (s := ⟨cs, o⟩) hw
      rw [e1] at hs; cases hs
    | @more _ w a k rest L0 h1 h2 h3 =>
      obtain ⟨t, s1, e1, -⟩ := lexeme_scan (U := U) (s := ⟨w ++ a ++ rest, o⟩) (fun c hc => (hW c hc).1) rfl h1 h2
      rw [e1] at hs; cases hs
    | @stuck _ w c rest h1 h2 =>
      generalize hc : w ++ c :: rest = cs' at h
      cases h with
      | more _ h2 _ => cases h2
      | @stuck _ w' c' rest' h1' h2' =>
        have nb : ∀ {r}, Stuck U r → isBreak r = false := fun h => (stuck_facts h).1
        obtain ⟨rfl, e⟩ := run_unique (p := isBreak) (rest := c :: rest) (rest' := c' :: rest') ⟨h1, fun d hd => by cases hd; exact nb h2⟩
          ⟨h1', fun d hd => by cases hd; exact nb h2'⟩ hc
        cases e
        rfl
  induction L generalizing o cs L' with
  | nil =>
    cases L' with
    | nil => rfl
    | cons x L' =>
      obtain ⟨t, s1, e1, e2, -⟩ := reads_done (s := ⟨cs, o⟩) h
      by_cases hx : ∃ r, x.lex = .wrong r
      · obtain ⟨r, hr⟩ := hx
        obtain ⟨k, a, b⟩ := x
        cases hr
        exact (stuckEq hW h' h).symm
      · obtain ⟨t', s1', f1, f2, -⟩ := reads_scan (s := ⟨cs, o⟩) hW (fun r hr => hx ⟨r, hr⟩) h'
        rw [e1] at f1
        cases f1
        exact absurd e2 f2
  | cons x L ih =>
    by_cases hx : ∃ r, x.lex = .wrong r
    · obtain ⟨r, hr⟩ := hx
      obtain ⟨k, a, b⟩ := x
      cases hr
      exact stuckEq hW h h'
    obtain ⟨t, s1, e1, e2, e3, e4, e5, e6, e7⟩ := reads_scan (s := ⟨cs, o⟩) hW (fun r hr => hx ⟨r, hr⟩) h
    cases L' with
    | nil =>
      obtain ⟨t', s1', f1, f2, -⟩ := reads_done (s := ⟨cs, o⟩) h'
      rw [e1] at f1
      cases f1
      exact absurd f2 e2
    | cons x' L' =>
      by_cases hx' : ∃ r, x'.lex = .wrong r
      · obtain ⟨r, hr⟩ := hx'
        obtain ⟨k, a, b⟩ := x'
        cases hr
        exact (stuckEq hW h' h).symm
      obtain ⟨t', s1', f1, f2, f3, f4, f5, f6, f7⟩ := reads_scan (s := ⟨cs, o⟩) hW (fun r hr => hx' ⟨r, hr⟩) h'
      rw [e1] at f1
      cases f1
      have hk := tokFor_unique e3 f3
      have hx : x = x' := by
        cases x; cases x'
        dsimp only at hk e4 e5 f4 f5
        rw [hk, ← e4, ← f4, ← e5, ← f5]
      rw [hx, ih e7 e6 f6]

/-! ## From the reasons to the panics -/

theorem not_known {t : GoString} (h : ¬ Known t) (hg : t ≠ bs!"\\genfrac") : macroLookup t = none := by
  cases hl : macroLookup t with
  | none => rfl
  | some v =>
    cases v with
    | some sig => exact absurd (knownOf hl).1 h
    | none =>
      refine absurd ⟨hg, ?_⟩ h
      unfold macroLookup at hl
      split at hl
      · next e he => exact .inl (List.mem_map_of_mem (f := Prod.fst) (lookup_mem he))
      · split at hl
        · split at hl <;> cases hl
        · cases hl

theorem script_facts {c : Nat} (h : c ∈ bs!"^_") : markKind c = .symbol ∧ ([c] = bs!"^" ∨ [c] = bs!"_") := by
  revert c; decide

/-- The list goes on. -/
theorem loop_on {s s' : SS} {t : Token} {k : Lex} {st : Stop} {u : Until} (hW : ∀ c ∈ s.rest, c.Ok) (g1 : scan U s = .ok (t, s')) (g2 : t.kind ≠ .eof)
    (g3 : TokFor t k) (hu : st.until = u) (hm : u.mark ≠ some k) : st.test t = false := by
  rw [← Bool.not_eq_true]
  intro ht
  rcases scan_lexes hW g1 with ⟨h, -⟩ | ⟨-, -, k', f1, f2, -⟩
  · exact g2 h
  · have hk := tokFor_unique f1 g3
    subst hk
    rw [stop_mark f1 f2, hu] at ht
    exact hm ht

theorem scan_eof_text {s s' : SS} {t : Token} (hW : ∀ c ∈ s.rest, c.Ok) (g1 : scan U s = .ok (t, s')) (g2 : t.kind = .eof) : t.text = [] := by
  rcases scan_lexes hW g1 with ⟨-, h, -⟩ | ⟨h, -⟩
  · exact h
  · exact absurd g2 h

mutual
theorem fail1_F : ∀ {m L p}, Fail1 m L p → ∀ {x L0} {s : SS} {t : Token}, L = x :: L0 → (∀ c ∈ s.rest, c.Ok) → Reads U s.off s.rest L0 →
    TokFor t x.lex → t.pos = x.start → s.off = x.stop → F U (.one t) (modeFor m) s p
  | _, _, _, .eof, _, _, s, t, e, hW, hL, ht, hp, ho => by cases e
  | _, _, _, .wrong, _, _, s, t, e, hW, hL, ht, hp, ho => by
    obtain ⟨rfl, rfl⟩ := List.cons.inj e
    exact ht.elim
  | _, _, _, .quoted, _, _, s, t, e, hW, hL, ht, hp, ho => by
    obtain ⟨rfl, rfl⟩ := List.cons.inj e
    exact .other ht.1
  | _, _, _, .group, _, _, s, t, e, hW, hL, ht, hp, ho => by
    obtain ⟨rfl, rfl⟩ := List.cons.inj e
    exact .lbrace ht.1
  | _, _, _, .brace, _, _, s, t, e, hW, hL, ht, hp, ho => by
    obtain ⟨rfl, rfl⟩ := List.cons.inj e
    exact .rbrace ht.1
  | _, _, _, .unknown hk hg, _, _, s, t, e, hW, hL, ht, hp, ho => by
    obtain ⟨rfl, rfl⟩ := List.cons.inj e
    obtain ⟨h1, rfl⟩ := ht
    exact .unknown h1 (not_known hk hg)
  | _, _, _, .genfrac, _, _, s, t, e, hW, hL, ht, hp, ho => by
    obtain ⟨rfl, rfl⟩ := List.cons.inj e
    obtain ⟨h1, h2⟩ := ht
    exact .nilMacro h1 (by rw [h2]; krfl)
  | _, _, _, .inMath h, _, _, s, t, e, hW, hL, ht, hp, ho => by
    obtain ⟨rfl, rfl⟩ := List.cons.inj e
    exact .math ht.1 ht.2 (failIn_F h (st := .dollar) rfl hW hL)
  | _, _, _, .inGroup h, _, _, s, t, e, hW, hL, ht, hp, ho => by
    obtain ⟨rfl, rfl⟩ := List.cons.inj e
    exact .group ht.1 (failIn_F h (st := .rbrace) rfl hW hL)
  | _, _, _, .inScript hc h, _, _, s, t, e, hW, hL, ht, hp, ho => by
    obtain ⟨rfl, rfl⟩ := List.cons.inj e
    obtain ⟨h1, h2⟩ := ht
    obtain ⟨f1, f2⟩ := script_facts hc
    obtain ⟨t1, s1, g1, g2, g3, g4, g5, g6, g7⟩ := reads_scan hW (by simp) hL
    exact .scriptGroup (h1.trans f1) (by rw [h2]; exact f2) ((reads_peek hW hL (by decide) (by decide)).2 ⟨_, _, by rw [ho]⟩) g1 g3.2
      (failIn_F h (st := .rbrace) rfl g7 g6)
  | _, _, _, .script (L := L) hc hb h, _, _, s, t, e, hW, hL, ht, hp, ho => by
    obtain ⟨rfl, rfl⟩ := List.cons.inj e
    obtain ⟨h1, h2⟩ := ht
    obtain ⟨f1, f2⟩ := script_facts hc
    dsimp only at ho
    have hpk : s.peek ≠ some ch!"{" := by
      intro hpk
      obtain ⟨e1, L2, he⟩ := (reads_peek hW hL (by decide) (by decide)).1 hpk
      exact hb ⟨e1, by rw [he, ho]; rfl⟩
    by_cases hl : L = []
    · have hp : ∀ {m L p}, Fail1 m L p → L = [] → p = .impossible := by
        intro m L p h hl
        cases h <;> first | rfl | cases hl
      rw [hl] at hL
      obtain ⟨t1, s1, g1, g2, g3⟩ := reads_done hL
      refine .scriptOne (h1.trans f1) (by rw [h2]; exact f2) hpk g1 ?_
      rw [hp h hl]
      exact .eof g2
    obtain ⟨y, L1, hy⟩ := List.exists_cons_of_ne_nil hl
    by_cases hw : ∃ r, y.lex = .wrong r
    · obtain ⟨r, hr⟩ := hw
      obtain ⟨k, a, b⟩ := y
      dsimp only at hr
      subst hr
      have hp : ∀ {m L p}, Fail1 m L p → L = ⟨.wrong r, a, b⟩ :: L1 → p = .unhandledToken r := by
        intro m L p h hl
        cases h <;> cases hl <;> rfl
      rw [hp h hy]
      rw [hy] at hL
      exact .scriptScan (h1.trans f1) (by rw [h2]; exact f2) hpk (reads_stuck hL).1
    · have hL' := hL
      rw [hy] at hL'
      obtain ⟨t1, s1, g1, g2, g3, g4, g5, g6, g7⟩ := reads_scan hW (fun r hr => hw ⟨r, hr⟩) hL'
      exact .scriptOne (h1.trans f1) (by rw [h2]; exact f2) hpk g1 (fail1_F h hy g7 g6 g3 g4 g5)
  | _, _, _, .inRoot h, _, _, s, t, e, hW, hL, ht, hp, ho => by
    obtain ⟨rfl, rfl⟩ := List.cons.inj e
    obtain ⟨h1, h2⟩ := ht
    obtain ⟨t1, s1, g1, g2, g3, g4, g5, g6, g7⟩ := reads_scan hW (by simp) hL
    have hk : macroLookup t.text = some (some bs!"OA") := by rw [h2]; krfl
    exact .macro h1 hk (.argsOpt (.inl rfl) ((reads_peek hW hL (by decide) (by decide)).2 ⟨_, _, by rw [ho]⟩) g1 g3.2 (failIn_F h (st := .rbrack) rfl g7 g6))
  | _, _, _, .root h ha, _, _, s, t, e, hW, hL, ht, hp, ho => by
    obtain ⟨rfl, rfl⟩ := List.cons.inj e
    obtain ⟨h1, h2⟩ := ht
    obtain ⟨t1, s1, g1, g2, g3, g4, g5, g6, g7⟩ := reads_scan hW (by simp) hL
    obtain ⟨s2, h3, h4, h5⟩ := items_P h (st := .rbrack) rfl g7 g6
    have hk : macroLookup t.text = some (some bs!"OA") := by rw [h2]; krfl
    exact .macro h1 hk (.argsOptRest (.inl rfl) ((reads_peek hW hL (by decide) (by decide)).2 ⟨_, _, by rw [ho]⟩) g1 g3.2 h3 (failArgs_F ha h5 h4))
  | _, _, _, .args (t := nm) hk hs ha, _, _, s, t, e, hW, hL, ht, hp, ho => by
    obtain ⟨rfl, rfl⟩ := List.cons.inj e
    obtain ⟨h1, h2⟩ := ht
    dsimp only at ho
    have hlk := lookupOf hk
    rw [← h2] at hlk
    refine .macro h1 hlk ?_
    have h6 := failArgs_F ha hW hL
    rcases sigOf_arity nm with ⟨e1, e2, e3⟩ | ⟨e1, e2⟩
    · rw [h2, e2]
      rw [e3] at h6
      refine .argsNoOpt (.inl rfl) ?_ h6
      intro hb
      obtain ⟨e', L2, he⟩ := (reads_peek hW hL (by decide) (by decide)).1 hb
      exact hs e1 ⟨e', by rw [he, ho]; rfl⟩
    · rw [h2, e2]; exact h6
theorem failIn_F : ∀ {m u L p}, FailIn m u L p → ∀ {st : Stop} {s : SS}, st.until = u → (∀ c ∈ s.rest, c.Ok) → Reads U s.off s.rest L →
    F U (.loop st) (modeFor m) s p
  | _, _, _, _, .here (x := x) hm h, st, s, hu, hW, hL => by
    by_cases hw : ∃ r, x.lex = .wrong r
    · obtain ⟨r, hr⟩ := hw
      obtain ⟨k, a, b⟩ := x
      dsimp only at hr
      subst hr
      have hp : ∀ {m L L1 p}, Fail1 m L p → L = ⟨.wrong r, a, b⟩ :: L1 → p = .unhandledToken r := by
        intro m L L1 p h hl
        cases h <;> cases hl <;> rfl
      rw [hp h rfl]
      exact .loopScan (reads_stuck hL).1
    · obtain ⟨t1, s1, g1, g2, g3, g4, g5, g6, g7⟩ := reads_scan hW (fun r hr => hw ⟨r, hr⟩) hL
      exact .loopOne g1 g2 (loop_on hW g1 g2 g3 hu hm) (fail1_F h rfl g7 g6 g3 g4 g5)
  | _, _, _, _, .later hm h1 h2, st, s, hu, hW, hL => by
    obtain ⟨t1, s1, g1, g2, g3, g4, g5, g6, g7⟩ := reads_scan hW (item1_not_wrong h1) hL
    obtain ⟨s2, h3, h4, h5⟩ := item1_P h1 rfl g7 g6 g3 g4 g5
    exact .loopRest g1 g2 (loop_on hW g1 g2 g3 hu hm) h3 (failIn_F h2 hu h5 h4)
theorem failArgs_F : ∀ {m n L p}, FailArgs m n L p → ∀ {s : SS}, (∀ c ∈ s.rest, c.Ok) → Reads U s.off s.rest L →
    F U (.args (List.replicate n ch!"A")) (modeFor m) s p
  | _, _, _, _, .eof, s, hW, hL => by
    obtain ⟨t1, s1, g1, g2, g3⟩ := reads_done hL
    exact .argsExpected (.inl rfl) g1 (by rw [scan_eof_text hW g1 g2]; simp)
  | _, _, _, _, .wrong, s, hW, hL => .argsScan (.inl rfl) (reads_stuck hL).1
  | _, _, _, _, .other hb hw, s, hW, hL => by
    obtain ⟨t1, s1, g1, g2, g3, -⟩ := reads_scan hW hw hL
    refine .argsExpected (.inl rfl) g1 fun hx => ?_
    rcases scan_lexes hW g1 with ⟨h, -⟩ | ⟨-, -, k, f1, f2, -⟩
    · exact g2 h
    · rw [tokFor_unique g3 f1] at hb
      exact hb (f2 _ (by decide) hx)
  | _, _, _, _, .inside h, s, hW, hL => by
    obtain ⟨t1, s1, g1, g2, g3, g4, g5, g6, g7⟩ := reads_scan hW (by simp) hL
    exact .argsArg (.inl rfl) g1 g3.2 (failIn_F h (st := .rbrace) rfl g7 g6)
  | _, _, _, _, .later h1 h2, s, hW, hL => by
    obtain ⟨t1, s1, g1, g2, g3, g4, g5, g6, g7⟩ := reads_scan hW (by simp) hL
    obtain ⟨s2, h3, h4, h5⟩ := items_P h1 (st := .rbrace) rfl g7 g6
    exact .argsArgRest (.inl rfl) g1 g3.2 h3 (failArgs_F h2 h5 h4)
end

/-! ## One or the other -/

/-- The characters that are lexemes are marks. -/
def MarksOk (L : List Lexed) : Prop := ∀ x ∈ L, ∀ c, x.lex = .mark c → c ∈ marks1

theorem reads_marks {o : Nat} {cs : List Ch} {L : List Lexed} (h : Reads U o cs L) : MarksOk L := by
  induction h with
  | done => intro x hx; cases hx
  | stuck _ _ =>
    intro x hx c hc
    rw [List.mem_singleton.1 hx] at hc
    cases hc
  | more _ h2 _ ih =>
    intro x hx c hc
    rcases List.mem_cons.1 hx with rfl | hx
    · dsimp only at hc
      subst hc
      cases h2
      assumption
    · exact ih x hx c hc

theorem marks_suffix {D L : List Lexed} (h : MarksOk (D ++ L)) : MarksOk L := fun x hx => h x (by simp [hx])

theorem mark_cases {c : Nat} (h : c ∈ marks1) : c ∈ bs!"=<>/*-+!?':,;.[]()" ∨ c = ch!"$" ∨ c ∈ bs!"^_" ∨ c = ch!"{" ∨ c = ch!"}" := by
  revert c; decide

theorem parse_or_fail : ∀ (N : Nat) (L : List Lexed), L.length < N → MarksOk L → ∀ m,
    ((∃ n L', Item1 m L n L') ∨ ∃ p, Fail1 m L p) ∧ (∀ u, (∃ l q L', Items m u L l q L') ∨ ∃ p, FailIn m u L p) ∧
    ∀ n, (∃ l L', Args m n L l L') ∨ ∃ p, FailArgs m n L p
  | 0, _, h, _, _ => by omega
  | N + 1, L, hN, hM, m => by
    have ih := parse_or_fail N
    have short : ∀ {D L' : List Lexed}, D ≠ [] → L = D ++ L' → L'.length < N ∧ MarksOk L' := by
      rintro D L' hD rfl
      have := List.length_pos_iff.2 hD
      refine ⟨?_, marks_suffix hM⟩
      rw [List.length_append] at hN
      omega
    have h1 : (∃ n L', Item1 m L n L') ∨ ∃ p, Fail1 m L p := by
      cases L with
      | nil => exact .inr ⟨_, .eof⟩
      | cons x L =>
        obtain ⟨k, o, e⟩ := x
        obtain ⟨hl, hm⟩ := short (D := [_]) (by simp) (L' := L) rfl
        cases k with
        | word => exact .inl ⟨_, _, .word⟩
        | number => exact .inl ⟨_, _, .number⟩
        | blank =>
          cases m with
          | true => exact .inl ⟨_, _, .mathBlank⟩
          | false => exact .inl ⟨_, _, .blank⟩
        | comment => exact .inl ⟨_, _, .comment⟩
        | quoted => exact .inr ⟨_, .quoted⟩
        | wrong => exact .inr ⟨_, .wrong⟩
        | mark c =>
          rcases mark_cases (hM _ List.mem_cons_self c rfl) with hc | rfl | hc | rfl | rfl
          · exact .inl ⟨_, _, .symbol hc⟩
          · rcases (ih L hl hm true).2.1 .dollar with ⟨l, q, L', h⟩ | ⟨p, h⟩
            · exact .inl ⟨_, _, .math h⟩
            · exact .inr ⟨_, .inMath h⟩
          · by_cases hb : braceAt e L
            · obtain ⟨e', hb⟩ := hb
              cases L with
              | nil => cases hb
              | cons y L =>
                cases hb
                obtain ⟨hl, hm⟩ := short (D := [_, _]) (by simp) (L' := L) rfl
                rcases (ih L hl hm m).2.1 .brace with ⟨l, q, L', h⟩ | ⟨p, h⟩
                · have : c = ch!"^" ∨ c = ch!"_" := by simpa using hc
                  rcases this with rfl | rfl
                  · exact .inl ⟨_, _, .supGroup h⟩
                  · exact .inl ⟨_, _, .subGroup h⟩
                · exact .inr ⟨_, .inScript hc h⟩
            · rcases (ih L hl hm m).1 with ⟨n, L', h⟩ | ⟨p, h⟩
              · have : c = ch!"^" ∨ c = ch!"_" := by simpa using hc
                rcases this with rfl | rfl
                · exact .inl ⟨_, _, .sup h⟩
                · exact .inl ⟨_, _, .sub h⟩
              · exact .inr ⟨_, .script hc hb h⟩
          · cases m with
            | true =>
              rcases (ih L hl hm true).2.1 .brace with ⟨l, q, L', h⟩ | ⟨p, h⟩
              · exact .inl ⟨_, _, .group h⟩
              · exact .inr ⟨_, .inGroup h⟩
            | false => exact .inr ⟨_, .group⟩
          · exact .inr ⟨_, .brace⟩
        | name t =>
          by_cases hg : t = bs!"\\genfrac"
          · subst hg; exact .inr ⟨_, .genfrac⟩
          by_cases hk : Known t
          · by_cases hb : t = bs!"\\sqrt" ∧ bracketAt e L
            · obtain ⟨rfl, e', hb⟩ := hb
              cases L with
              | nil => cases hb
              | cons y L =>
                cases hb
                obtain ⟨hl, hm⟩ := short (D := [_, _]) (by simp) (L' := L) rfl
                rcases (ih L hl hm m).2.1 .bracket with ⟨l, q, L', h⟩ | ⟨p, h⟩
                · obtain ⟨D, rfl⟩ := items_suffix h
                  rcases (ih L' (by rw [List.length_append] at hl; omega) (marks_suffix hm) m).2.2 1 with ⟨l', L'', h'⟩ | ⟨p, h'⟩
                  · exact .inl ⟨_, _, .root h h'⟩
                  · exact .inr ⟨_, .root h h'⟩
                · exact .inr ⟨_, .inRoot h⟩
            · rcases (ih L hl hm m).2.2 (arity t) with ⟨l, L', h⟩ | ⟨p, h⟩
              · exact .inl ⟨_, _, .macro hk h (fun ht e' he => hb ⟨ht, e', he⟩)⟩
              · exact .inr ⟨_, .args hk (fun ht he => hb ⟨ht, he⟩) h⟩
          · exact .inr ⟨_, .unknown hk hg⟩
    refine ⟨h1, fun u => ?_, fun n => ?_⟩
    · cases L with
      | nil => exact .inl ⟨_, _, _, .eof⟩
      | cons x L =>
        by_cases hu : u.mark = some x.lex
        · exact .inl ⟨_, _, _, .close hu⟩
        rcases h1 with ⟨n, L', h⟩ | ⟨p, h⟩
        · obtain ⟨D, hD, e⟩ := item1_suffix h
          obtain ⟨hl, hm⟩ := short hD e
          rcases (ih L' hl hm m).2.1 u with ⟨l, q, L'', h'⟩ | ⟨p, h'⟩
          · exact .inl ⟨_, _, _, .item hu h h'⟩
          · exact .inr ⟨_, .later hu h h'⟩
        · exact .inr ⟨_, .here hu h⟩
    · cases n with
      | zero => exact .inl ⟨_, _, .done⟩
      | succ n =>
        cases L with
        | nil => exact .inr ⟨_, .eof⟩
        | cons x L =>
          obtain ⟨k, o, e⟩ := x
          obtain ⟨hl, hm⟩ := short (D := [_]) (by simp) (L' := L) rfl
          by_cases hw : ∃ r, k = .wrong r
          · obtain ⟨r, rfl⟩ := hw
            exact .inr ⟨_, .wrong⟩
          by_cases hb : k = .mark ch!"{"
          · subst hb
            rcases (ih L hl hm m).2.1 .brace with ⟨l, q, L', h⟩ | ⟨p, h⟩
            · obtain ⟨D, rfl⟩ := items_suffix h
              rcases (ih L' (by rw [List.length_append] at hl; omega) (marks_suffix hm) m).2.2 n with ⟨l', L'', h'⟩ | ⟨p, h'⟩
              · exact .inl ⟨_, _, .more h h'⟩
              · exact .inr ⟨_, .later h h'⟩
            · exact .inr ⟨_, .inside h⟩
          · exact .inr ⟨_, .other hb (fun r hr => hw ⟨r, hr⟩)⟩

end Verif
