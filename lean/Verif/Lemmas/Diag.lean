import Verif.Model.Diag
import Verif.Lemmas.GrammarParse
/-! # The messages of ParseExpr are those of the pieces of the source -/

namespace Verif
open Spec
variable {U : Nat → Bool}

/-- The characters are cut into the tokens of text/scanner, and these are the messages about them. -/
inductive Cut (U : Nat → Bool) : List Ch → List Diag → Prop where
  | done : Cut U [] []
  | more {c cs P} : Cut U (scanRest U c cs).2 P → Cut U (c :: cs) (restDiags U c cs ++ P)

/-- From one state to another, and what is printed in between. -/
def Adv (U : Nat → Bool) (s s' : SS) (L : Log) : Prop :=
  L.chars ++ s'.rest.tail.flatMap charDiag = s.rest.tail.flatMap charDiag ∧
  ∀ P, Cut U s'.rest P → Cut U s.rest (L.toks ++ P)

theorem Adv.refl (s : SS) : Adv U s s ⟨[], []⟩ := ⟨rfl, fun _ h => h⟩

theorem Adv.trans {s s' s'' : SS} {L L' : Log} (h : Adv U s s' L) (h' : Adv U s' s'' L') : Adv U s s'' (L ++ L') := by
  refine ⟨?_, fun P hP => ?_⟩
  · show (L.chars ++ L'.chars) ++ _ = _
    rw [List.append_assoc, h'.1, h.1]
  · show Cut U _ ((L.toks ++ L'.toks) ++ P)
    rw [List.append_assoc]
    exact h.2 _ (h'.2 P hP)

theorem cut_ws {w rest : List Ch} (hw : ∀ c ∈ w, isBreak c.r = true) {P : List Diag} (h : Cut U rest P) : Cut U (w ++ rest) P := by
  induction w with
  | nil => exact h
  | cons c w ih =>
    have hc : c.r = 9 ∨ c.r = 10 ∨ c.r = 13 := by
      have := hw c List.mem_cons_self
      simp [isBreak] at this; omega
    have h2 := ih fun d hd => hw d (List.mem_cons_of_mem _ hd)
    have e1 : scanRest U c (w ++ rest) = (.rune c.r, w ++ rest) := by
      unfold scanRest
      rcases hc with hc | hc | hc <;> simp [hc, isLetter, isDecimal]
    have e2 : restDiags U c (w ++ rest) = [] := by
      unfold restDiags
      rcases hc with hc | hc | hc <;> simp [hc, isLetter, isDecimal]
    have := Cut.more (U := U) (c := c) (cs := w ++ rest) (P := P) (by rw [e1]; exact h2)
    rw [e2] at this
    exact this

theorem suffix_tail {p r : List Ch} : ∃ q, (p ++ r).tail = q ++ r.tail := by
  cases p with
  | nil => exact ⟨[], rfl⟩
  | cons x p =>
    cases r with
    | nil => exact ⟨p, by simp⟩
    | cons y r => exact ⟨p ++ [y], by simp⟩

theorem rawScan_adv (ws : Nat → Bool) (hws : ∀ r, ws r = true → isBreak r = true) (s : SS) :
    Adv U s (rawScan U ws s).2 (rawLog U ws s) := by
  constructor
  · obtain ⟨w, a, h⟩ := rawScan_lex U ws s
    obtain ⟨q, hq⟩ := suffix_tail (p := w ++ a) (r := (rawScan U ws s).2.rest)
    unfold rawLog
    dsimp only
    rw [h.rest, hq, consumed_append, ← List.flatMap_append]
  · intro P hP
    obtain ⟨w, hw, hr⟩ := run_drop ws s.rest
    unfold rawLog
    dsimp only
    rw [hw]
    have hbr : ∀ c ∈ w, isBreak c.r = true := fun c hc => hws _ (hr.1 c hc)
    refine cut_ws hbr ?_
    rw [← hw]
    have hs : (rawScan U ws s).2.rest = (match s.rest.dropWhile fun c => ws c.r with | [] => [] | c :: cs => (scanRest U c cs).2) := by
      unfold rawScan
      dsimp only
      split <;> simp_all
    rw [hs] at hP
    split
    · next h => rw [h] at hP; simpa [h] using hP
    · next c cs h => rw [h] at hP ⊢; exact .more hP

/-- The instrumented run does what the run does, and prints what there is between the two states. -/
def LSim (U : Nat → Bool) {α : Type} (p : α → SS) (s : SS) (r : Res α) (l : LRes α) : Prop :=
  l.2 = r ∧ ∃ s', Adv U s s' l.1 ∧ ∀ a, r = .ok a → p a = s'

variable {α β : Type} {p : α → SS} {q : β → SS} {s : SS}

theorem LSim.ok {a : α} (h : p a = s) : LSim U p s (.ok a) (.ok a) := ⟨rfl, s, .refl s, fun b hb => by cases hb; exact h⟩
theorem LSim.panic {e : Panic} : LSim U p s (.panic e) (.panic e) := ⟨rfl, s, .refl s, fun b hb => by cases hb⟩
theorem LSim.fuel : LSim U p s .fuel .fuel := ⟨rfl, s, .refl s, fun b hb => by cases hb⟩

theorem LSim.bind {r : Res α} {l : LRes α} {f : α → Res β} {g : α → LRes β} (h : LSim U p s r l)
    (hf : ∀ a, r = .ok a → LSim U q (p a) (f a) (g a)) : LSim U q s (r >>= f) (l >>= g) := by
  obtain ⟨h1, s', h2, h3⟩ := h
  obtain ⟨L, r'⟩ := l
  dsimp only at h1 h2
  subst h1
  show LSim U q s _ (LRes.bind _ _)
  unfold LRes.bind
  cases r' with
  | ok a =>
    obtain ⟨k1, s'', k2, k3⟩ := hf a rfl
    cases h3 a rfl
    exact ⟨k1, s'', h2.trans k2, k3⟩
  | panic e => exact ⟨rfl, s', h2, fun b hb => by cases hb⟩
  | fuel => exact ⟨rfl, s', h2, fun b hb => by cases hb⟩

theorem LSim.log {s' : SS} {L : Log} {r : Res α} {l : LRes α} (h : Adv U s s' L) (hr : LSim U p s' r l) : LSim U p s r (.log L l) := by
  obtain ⟨h1, s'', h2, h3⟩ := hr
  exact ⟨h1, s'', h.trans h2, h3⟩

theorem no_ws : ∀ r, (fun _ : Nat => false) r = true → isBreak r = true := fun _ h => by cases h

theorem sim_scanComment : ∀ (n : Nat) (s : SS) (acc : GoString), LSim U (·.2) s (scanCommentN U n s acc) (scanCommentL U n s acc)
  | 0, s, acc => .fuel
  | n + 1, s, acc => by
    unfold scanCommentN scanCommentL
    dsimp only
    refine .log (rawScan_adv _ no_ws s) ?_
    split
    · exact sim_scanComment n _ _
    split
    · exact .ok rfl
    · exact sim_scanComment n _ _

theorem isWs_br : ∀ r, isWs r = true → isBreak r = true := fun _ h => h

theorem sim_scan (s : SS) : LSim U (·.2) s (scan U s) (scanL U s) := by
  unfold scanL
  dsimp only
  refine .log (rawScan_adv _ isWs_br s) ?_
  have one : ∀ r : Res (Token × SS), (∀ a, r = .ok a → a.2 = (rawScan U isWs s).2) → LSim U (·.2) (rawScan U isWs s).2 r (.of ⟨[], []⟩ r) :=
    fun r h => ⟨rfl, _, .refl _, h⟩
  cases hr : (rawScan U isWs s).1.cls with
  | rune r =>
    show LSim U _ _ _ (if r = ch!"\\" then _ else _)
    by_cases h : r = ch!"\\"
    · rw [if_pos h]
      refine ⟨rfl, (rawScan U isWs (rawScan U isWs s).2).2, rawScan_adv _ isWs_br _, fun a ha => ?_⟩
      unfold scan at ha
      dsimp only at ha
      rw [hr] at ha
      dsimp only at ha
      rw [if_pos h] at ha
      split at ha <;> · cases ha; rfl
    rw [if_neg h]
    by_cases h' : r = ch!"%"
    · rw [if_pos h']
      have e : scan U s = (scanCommentN U ((rawScan U isWs s).2.rest.length + 1) (rawScan U isWs s).2 bs!"%" >>= fun x =>
          .ok (⟨.comment, (rawScan U isWs s).1.pos, x.1⟩, x.2)) := by
        subst h'
        unfold scan
        dsimp only
        rw [hr]
        simp only
        rw [if_neg (by decide), if_neg (by decide), if_pos trivial]
        cases scanCommentN U ((rawScan U isWs s).2.rest.length + 1) (rawScan U isWs s).2 bs!"%" <;> rfl
      rw [e]
      refine (sim_scanComment _ _ _).bind fun a _ => ?_
      exact .ok rfl
    · rw [if_neg h']
      refine one _ fun a ha => ?_
      unfold scan at ha
      dsimp only at ha
      rw [hr] at ha
      dsimp only at ha
      rw [if_neg h, if_neg h'] at ha
      repeat' split at ha
      all_goals cases ha
      all_goals rfl
  | _ =>
    refine one _ fun a ha => ?_
    unfold scan at ha
    dsimp only at ha
    rw [hr] at ha
    cases ha
    rfl

theorem sim_expect (v : Nat) (s : SS) : LSim U (·.2) s (expect U v s) (expectL U v s) := by
  unfold expect expectL
  refine (sim_scan s).bind fun a _ => ?_
  split
  · exact .ok rfl
  · exact .panic

/-- a loop and its instrumented copy -/
def LoopSim (U : Nat → Bool) (loop : Loop) (loopL : LoopL) : Prop := ∀ m stop s, LSim U (·.2.2) s (loop m stop s) (loopL m stop s)

theorem sim_args {loop : Loop} {loopL : LoopL} (hl : LoopSim U loop loopL) (m : Mode) : ∀ (sig : GoString) (s : SS),
    LSim U (·.2) s (parseArgs U loop m sig s) (parseArgsL U loopL m sig s)
  | [], s => by unfold parseArgs parseArgsL; exact .ok rfl
  | c :: sig, s => by
    unfold parseArgs parseArgsL
    split
    · refine LSim.bind (p := (·.2)) ?_ fun a _ => ?_
      rotate_left
      · refine (sim_args hl m sig _).bind fun b _ => ?_
        exact .ok rfl
      unfold parseMacroArg parseMacroArgL
      exact (sim_expect _ _).bind fun a _ => (hl _ _ _).bind fun b _ => .ok rfl
    split
    · refine LSim.bind (p := (·.2)) ?_ fun a _ => ?_
      rotate_left
      · refine (sim_args hl m sig _).bind fun b _ => ?_
        exact .ok rfl
      unfold parseOptMacroArg parseOptMacroArgL
      split
      · exact .ok rfl
      · exact (sim_expect _ _).bind fun a _ => (hl _ _ _).bind fun b _ => .ok rfl
    · exact sim_args hl m sig s

mutual
theorem sim_node : ∀ (n : Nat) (m : Mode) (t : Token) (s : SS), LSim U (·.2) s (parseNode U n m t s) (parseNodeL U n m t s)
  | 0, m, t, s => by unfold parseNode parseNodeL; exact .fuel
  | n + 1, m, t, s => by
    have hl : LoopSim U (parseLoop U n) (parseLoopL U n) := fun m st s => sim_loop n m st s
    unfold parseNode parseNodeL
    cases t.kind <;> dsimp only
    all_goals try exact .ok rfl
    all_goals try exact .panic
    · cases macroLookup t.text with
      | none => exact .panic
      | some o =>
        cases o with
        | none => exact .panic
        | some sig => exact (sim_args hl m sig s).bind fun a _ => .ok rfl
    · cases m
      · exact .ok rfl
      · exact .ok rfl
    · split
      · exact (hl _ _ _).bind fun a _ => .ok rfl
      split
      · split
        · exact (sim_expect _ _).bind fun a _ => (hl _ _ _).bind fun b _ => .ok rfl
        · exact (sim_scan _).bind fun a _ => (sim_node n _ _ _).bind fun b _ => .ok rfl
      split
      · split
        · exact (sim_expect _ _).bind fun a _ => (hl _ _ _).bind fun b _ => .ok rfl
        · exact (sim_scan _).bind fun a _ => (sim_node n _ _ _).bind fun b _ => .ok rfl
      · exact .ok rfl
    · cases m
      · exact .panic
      · exact (hl _ _ _).bind fun a _ => .ok rfl
theorem sim_loop : ∀ (n : Nat) (m : Mode) (st : Token → Bool) (s : SS), LSim U (·.2.2) s (parseLoop U n m st s) (parseLoopL U n m st s)
  | 0, m, st, s => by unfold parseLoop parseLoopL; exact .fuel
  | n + 1, m, st, s => by
    unfold parseLoop parseLoopL
    refine (sim_scan s).bind fun a _ => ?_
    split
    · exact .ok rfl
    split
    · exact .ok rfl
    · exact (sim_node n _ _ _).bind fun b _ => (sim_loop n _ _ _).bind fun c _ => .ok rfl
end

end Verif
