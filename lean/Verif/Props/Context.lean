import Verif.Lemmas.Comment
import Verif.Model.Krfl
/-!
# C07–C09: what precedes an expression

`(parseExpr U x).map (shift d)`: the same panic, or the same tree with every position increased
by `d` (`Spec.shift`).
-/

namespace Verif.Props
open Verif Verif.Spec

variable (U : Nat → Bool)

/-- A UTF-8 byte-order mark. -/
def bom : GoString := [0xEF, 0xBB, 0xBF]

/-- C07: leading tabs, newlines and carriage returns only shift positions. -/
theorem C07_leading_breaks (w x : GoString) (hw : ∀ b ∈ w, isBreak b = true) (hx : ¬ bom <+: x) :
    parseExpr U (w ++ x) = (parseExpr U x).map (shift w.length) := by
  have hasc : ∀ b ∈ w, b < 0x80 := by
    intro b hb
    have := hw b hb
    simp [isBreak] at this; omega
  have hbom : ¬ bom <+: w ++ x := by
    cases w with
    | nil => simpa using hx
    | cons b w =>
      rintro ⟨t, ht⟩
      have h1 : b = 0xEF := (List.cons.inj ht).1.symm
      have := hasc b (by simp)
      omega
  refine parseExpr_shift (k := 0) hx fun n => ?_
  rw [SS.init_of_not_bom hbom, decode_ascii_append hasc]
  have hws : ∀ c ∈ ascii w, isWs c.r = true := by
    intro c hc
    simp only [ascii, List.mem_map] at hc
    obtain ⟨b, hb, rfl⟩ := hc
    exact hw b hb
  cases n with
  | zero => rfl
  | succ n =>
    rw [Nat.add_zero]
    unfold parseLoop
    rw [scan_ws hws]
    simp

example : parseExpr U (bs!"\n\t" ++ bs!"a $b") =
    .ok (.list [.word 2 bs!"a", .sym 3 bs!" ", .math bs!"$" 4 [.word 5 bs!"b"] 0]) ∧
    (∀ b ∈ bs!"\n\t", isBreak b = true) ∧ ¬ bom <+: bs!"a $b" := ⟨by krfl, by decide, by decide⟩

theorem not_bom_percent (y : GoString) : ¬ bom <+: ch!"%" :: y := by
  rintro ⟨t, ht⟩
  have := (List.cons.inj ht).1
  omega

theorem decode_free {body : GoString} {v : Nat} (hv : v < 128) (h : v ∉ body) : ∀ c ∈ decode body, c.r ≠ v := by
  intro c hc hr
  have hb := (decode_wf body c hc).2 (by omega)
  apply h
  have : v ∈ bytesOf (decode body) := by
    simp only [bytesOf, List.mem_flatMap]
    exact ⟨c, hc, by rw [hb, hr]; simp⟩
  rwa [bytesOf_decode] at this

/-- A comment followed by `x`, given how its text is scanned. -/
theorem comment_shift {x y : GoString} {d : Nat} (hx : ¬ bom <+: x)
    (h : ∃ line, scanCommentN U ((decode y).length + 1) ⟨decode y, 1⟩ bs!"%" = .ok (line, ⟨decode x, d⟩)) :
    parseExpr U (bs!"%" ++ y) = (parseExpr U x).map (shift d) := by
  obtain ⟨line, hl⟩ := h
  have hs : scan U (SS.init (bs!"%" ++ y)) = .ok (⟨.comment, 0, line⟩, ⟨decode x, d⟩) := by
    rw [show (bs!"%" ++ y) = ch!"%" :: y from rfl, SS.init_of_not_bom (not_bom_percent y),
      decode_ascii_cons _ (by omega)]
    exact scan_comment hl
  -- one more step of the loop is needed in front, none for an empty bound
  have key : ∀ n, parseLoop U (n + 1 + 1) .normal (fun _ => false) (SS.init (bs!"%" ++ y)) =
      parseLoop U (n + 1) .normal (fun _ => false) ⟨decode x, d⟩ := fun n => loop_comment hs
  have hi := SS.init_of_not_bom hx
  let N := 2 * x.length + 2 * (bs!"%" ++ y).length + 2
  have e1 : parseExpr U x = parseExprN U (N + 1) x :=
    (Res.le_of_ne (parseExprN_mono U (by omega) x) (parseExprN_ne_fuel U (by omega))).symm
  have e2 : parseExpr U (bs!"%" ++ y) = parseExprN U (N + 1 + 1) (bs!"%" ++ y) :=
    (Res.le_of_ne (parseExprN_mono U (by omega) _) (parseExprN_ne_fuel U (by omega))).symm
  rw [e1, e2]
  unfold parseExprN
  rw [key N, hi]
  have hs := parseTop_sim (U := U) (x := x) (d := d) (N + 1) (s := ⟨decode x, 0⟩) ⟨[], by simp, by simp⟩
  have hs' : SS.shift d ⟨decode x, 0⟩ = ⟨decode x, d⟩ := by simp [SS.shift]
  rw [hs'] at hs
  refine Sim.map_eq (R := fun a b => b = shift d a) (hs.bind fun r r' hr => ?_) (fun _ _ h => h)
  simp only [Sim, shift, hr]

/-- C08: a comment line without a double quote only shifts positions. -/
theorem C08_comment_line (body x : GoString) (h1 : ch!"\n" ∉ body) (h2 : ch!"\"" ∉ body)
    (hx : ¬ bom <+: x) :
    parseExpr U (bs!"%" ++ body ++ bs!"\n" ++ x) = (parseExpr U x).map (shift (body.length + 2)) := by
  rw [show bs!"%" ++ body ++ bs!"\n" ++ x = bs!"%" ++ (body ++ ch!"\n" :: x) by simp]
  refine comment_shift U hx ?_
  rw [decode_append body x (by omega), decode_ascii_cons _ (by omega)]
  obtain ⟨k, acc, hk, hrun⟩ := comment_run (U := U) (q := ⟨10, [10]⟩) (rest := decode x) rfl rfl _ (decode body) 1
    bs!"%" (Nat.le_refl _) fun c hc =>
      ⟨decode_free (by omega) h1 c hc, decode_free (by omega) h2 c hc⟩
  refine ⟨acc, ?_⟩
  have hlen : (decode body ++ ⟨10, [10]⟩ :: decode x).length + 1 =
      ((decode body).length - k + (decode x).length + 1 + 1) + k := by simp; omega
  rw [hlen, hrun, comment_end, bytesOf_decode]
  simp; omega

example : parseExpr (fun _ => true) (bs!"%" ++ bs!" 100$ {é \\nope" ++ bs!"\n" ++ bs!"a") =
    .ok (.list [.word 17 bs!"a"]) ∧ ch!"\n" ∉ bs!" 100$ {é \\nope" ∧ ch!"\"" ∉ bs!" 100$ {é \\nope" ∧
    ¬ bom <+: bs!"a" := ⟨by krfl, by decide, by decide, by decide⟩

/-- C09: an unterminated double quote in a comment makes it swallow the whole next line `c`. -/
theorem C09_quote_swallows_line (a b c x : GoString)
    (ha : ch!"\n" ∉ a ∧ ch!"\"" ∉ a) (hb : ch!"\n" ∉ b ∧ ch!"\"" ∉ b ∧ ch!"\\" ∉ b)
    (hc : ch!"\n" ∉ c ∧ ch!"\"" ∉ c) (hx : ¬ bom <+: x) :
    parseExpr U (bs!"%" ++ a ++ bs!"\"" ++ b ++ bs!"\n" ++ c ++ bs!"\n" ++ x) =
      (parseExpr U x).map (shift (a.length + b.length + c.length + 4)) := by
  rw [show bs!"%" ++ a ++ bs!"\"" ++ b ++ bs!"\n" ++ c ++ bs!"\n" ++ x =
    bs!"%" ++ (a ++ ch!"\"" :: (b ++ ch!"\n" :: (c ++ ch!"\n" :: x))) by simp]
  refine comment_shift U hx ?_
  rw [decode_append a _ (by omega), decode_ascii_cons _ (by omega), decode_append b _ (by omega),
    decode_ascii_cons _ (by omega), decode_append c _ (by omega), decode_ascii_cons _ (by omega)]
  obtain ⟨k, acc, hk, hrun⟩ := comment_run (U := U) (q := ⟨34, [34]⟩)
    (rest := decode b ++ ⟨10, [10]⟩ :: (decode c ++ ⟨10, [10]⟩ :: decode x)) rfl rfl _ (decode a) 1 bs!"%"
    (Nat.le_refl _) fun d hd => ⟨decode_free (by omega) ha.1 d hd, decode_free (by omega) ha.2 d hd⟩
  have hstr := fun n => comment_string (U := U) (n := n) (b := decode b)
    (rest := decode c ++ ⟨10, [10]⟩ :: decode x) (o := 1 + (bytesOf (decode a)).length) (acc := acc) fun d hd =>
      ⟨decode_free (by omega) hb.1 d hd, decode_free (by omega) hb.2.1 d hd,
        decode_free (by omega) hb.2.2 d hd⟩
  let M := (decode a).length - k + (decode b).length + (decode c).length + (decode x).length + 3
  obtain ⟨acc2, hstr⟩ := hstr M
  obtain ⟨k3, acc3, hk3, hrun3⟩ := comment_run (U := U) (q := ⟨10, [10]⟩) (rest := decode x) rfl rfl _ (decode c)
    (1 + (bytesOf (decode a)).length + ((bytesOf (decode b)).length + 2)) acc2
    (Nat.le_refl _) fun d hd => ⟨decode_free (by omega) hc.1 d hd, decode_free (by omega) hc.2 d hd⟩
  refine ⟨acc3, ?_⟩
  have hlen : (decode a ++ ⟨34, [34]⟩ :: (decode b ++ ⟨10, [10]⟩ :: (decode c ++ ⟨10, [10]⟩ :: decode x))).length + 1 =
      (M + 1) + k := by simp [M]; omega
  rw [hlen, hrun, hstr, show M = (M - k3 - 1 + 1) + k3 by simp only [M]; omega, hrun3, comment_end]
  simp only [bytesOf_decode]
  simp; omega

/-- C09, a witness: `ab` on the second line is missing from the tree, so the unrestricted form of
C08 is false. -/
theorem C09_witness : parseExpr U bs!"% 5\" disk\nab\ncd" = .ok (.list [.word 13 bs!"cd"]) ∧
    parseExpr U bs!"ab\ncd" = .ok (.list [.word 0 bs!"ab", .word 3 bs!"cd"]) := ⟨by krfl, by krfl⟩

end Verif.Props
