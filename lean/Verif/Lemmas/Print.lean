import Verif.Model.Print
import Verif.Lemmas.Utf8
import Verif.Spec.Tree
/-! # `Print` is a prefix code -/

namespace Verif
open Spec

/-! ## UTF-8 -/

/-- A rune as decoded from somewhere, other than an invalid byte. -/
structure Valid (c : Ch) : Prop where
  ne : c.b ≠ []
  dec : ∀ b0 t y, c.b = b0 :: t → decodeRune b0 (t ++ y) = (c.r, c.b.length)

/-- An invalid byte. -/
def Bad (c : Ch) : Prop := ∃ b, c = ⟨runeError, [b]⟩ ∧ 128 ≤ b

theorem decode_valid (s : GoString) : ∀ c ∈ decode s, (Bad c ∧ ∃ b ∈ s, c.b = [b]) ∨
    (Valid c ∧ ¬ (c.r = runeError ∧ c.b.length = 1)) := by
  induction h : s.length using Nat.strongRecOn generalizing s with
  | _ n ih =>
    cases s with
    | nil => simp
    | cons b0 t =>
      intro c hc
      rw [decode_cons] at hc
      have hw := decodeRune_width b0 t
      rcases List.mem_cons.1 hc with rfl | hc
      · clear hc ih h
        unfold decodeRune
        split
        · rename_i hb
          right
          refine ⟨⟨by simp, ?_⟩, ?_⟩
          · intro b t' y he
            simp only [List.take_succ_cons, List.take_zero, List.cons.injEq] at he
            obtain ⟨rfl, rfl⟩ := he
            simp [decodeRune, hb]
          · simp [runeError]; omega
        rename_i hb
        have bad : (Bad ⟨runeError, [b0]⟩ ∧ ∃ b ∈ b0 :: t, [b0] = [b]) ∨
            (Valid ⟨runeError, [b0]⟩ ∧ ¬ (runeError = runeError ∧ [b0].length = 1)) :=
          .inl ⟨⟨b0, rfl, by omega⟩, b0, by simp, rfl⟩
        split
        · rename_i h2
          split
          · rename_i b1 t'
            split
            · rename_i h3
              right
              refine ⟨⟨by simp, ?_⟩, by simp⟩
              intro b t'' y he
              simp only [List.take_succ_cons, List.take_zero, List.cons.injEq] at he
              obtain ⟨rfl, rfl⟩ := he
              simp [decodeRune, hb, h2, h3]
            · exact bad
          · exact bad
        rename_i h2
        split
        · rename_i h3
          split
          · rename_i b1 b2 t'
            simp only
            generalize hlo : (if b0 = 0xE0 then 0xA0 else 0x80) = lo
            generalize hhi : (if b0 = 0xED then 0x9F else 0xBF) = hi
            split
            · rename_i h4
              right
              refine ⟨⟨by simp, ?_⟩, by simp⟩
              intro b t'' y he
              simp only [List.take_succ_cons, List.take_zero, List.cons.injEq] at he
              obtain ⟨rfl, rfl⟩ := he
              simp [decodeRune, hb, h2, h3, hlo, hhi, h4]
            · exact bad
          · exact bad
        rename_i h3
        split
        · rename_i h4
          split
          · rename_i b1 b2 b3 t'
            simp only
            generalize hlo : (if b0 = 0xF0 then 0x90 else 0x80) = lo
            generalize hhi : (if b0 = 0xF4 then 0x8F else 0xBF) = hi
            split
            · rename_i h5
              right
              refine ⟨⟨by simp, ?_⟩, by simp⟩
              intro b t'' y he
              simp only [List.take_succ_cons, List.take_zero, List.cons.injEq] at he
              obtain ⟨rfl, rfl⟩ := he
              simp [decodeRune, hb, h2, h3, h4, hlo, hhi, h5]
            · exact bad
          · exact bad
        · exact bad
      · have hlen : ((b0 :: t).drop (decodeRune b0 t).2).length < n := by
          simp only [List.length_drop, List.length_cons] at *; omega
        rcases ih _ hlen _ rfl c hc with ⟨h1, b, h2, h3⟩ | h1
        · exact .inl ⟨h1, b, List.mem_of_mem_drop h2, h3⟩
        · exact .inr h1

/-- The four shapes of a valid encoding. -/
theorem valid_shape {c : Ch} (h : Valid c) (hn : ¬ (c.r = runeError ∧ c.b.length = 1)) :
    (∃ b, c = ⟨b, [b]⟩ ∧ b < 128) ∨
    (∃ a b, c = ⟨(a - 0xC0) * 64 + (b - 0x80), [a, b]⟩ ∧ 0xC2 ≤ a ∧ a ≤ 0xDF ∧ 0x80 ≤ b ∧ b ≤ 0xBF) ∨
    (∃ a b d, c = ⟨(a - 0xE0) * 4096 + (b - 0x80) * 64 + (d - 0x80), [a, b, d]⟩ ∧ 0xE0 ≤ a ∧ a ≤ 0xEF ∧
      0x80 ≤ b ∧ b ≤ 0xBF ∧ (a = 0xE0 → 0xA0 ≤ b) ∧ 0x80 ≤ d ∧ d ≤ 0xBF) ∨
    (∃ a b d e, c = ⟨(a - 0xF0) * 262144 + (b - 0x80) * 4096 + (d - 0x80) * 64 + (e - 0x80), [a, b, d, e]⟩ ∧
      0xF0 ≤ a ∧ a ≤ 0xF4 ∧ 0x80 ≤ b ∧ b ≤ 0xBF ∧ (a = 0xF0 → 0x90 ≤ b) ∧ (a = 0xF4 → b ≤ 0x8F) ∧
      0x80 ≤ d ∧ d ≤ 0xBF ∧ 0x80 ≤ e ∧ e ≤ 0xBF) := by
  obtain ⟨r, b⟩ := c
  cases b with
  | nil => exact absurd rfl h.ne
  | cons b0 t =>
    have hd := h.dec b0 t [] rfl
    simp only [List.append_nil, List.length_cons] at hd hn
    unfold decodeRune at hd
    split at hd
    · rename_i hb
      simp only [Prod.mk.injEq] at hd
      have : t = [] := List.length_eq_zero_iff.1 (by omega)
      subst this
      left
      exact ⟨b0, by simp [hd.1.symm], hb⟩
    have bad : ∀ {P : Prop}, (runeError, 1) = (r, t.length + 1) → P := by
      intro P he
      simp only [Prod.mk.injEq] at he
      exact absurd ⟨he.1.symm, by omega⟩ hn
    split at hd
    · rename_i h2
      simp only [Bool.and_eq_true, decide_eq_true_eq] at h2
      split at hd
      · rename_i b1 t'
        split at hd
        · rename_i h3
          simp only [Prod.mk.injEq, List.length_cons] at hd
          have : t' = [] := List.length_eq_zero_iff.1 (by omega)
          subst this
          simp only [isCont, Bool.and_eq_true, decide_eq_true_eq] at h3
          right; left
          exact ⟨b0, b1, by simp [hd.1.symm], by omega, by omega, by omega, by omega⟩
        · exact bad hd
      · exact bad hd
    split at hd
    · rename_i h3
      simp only [Bool.and_eq_true, decide_eq_true_eq] at h3
      split at hd
      · rename_i b1 b2 t'
        simp only at hd
        generalize hlo : (if b0 = 0xE0 then 0xA0 else 0x80) = lo at hd
        generalize hhi : (if b0 = 0xED then 0x9F else 0xBF) = hi at hd
        split at hd
        · rename_i h4
          simp only [Prod.mk.injEq, List.length_cons] at hd
          have : t' = [] := List.length_eq_zero_iff.1 (by omega)
          subst this
          simp only [isCont, Bool.and_eq_true, decide_eq_true_eq] at h4
          right; right; left
          refine ⟨b0, b1, b2, by simp [hd.1.symm], by omega, by omega, ?_, ?_, ?_, by omega, by omega⟩
          · split at hlo <;> omega
          · split at hhi <;> omega
          · intro h0; rw [if_pos h0] at hlo; omega
        · exact bad hd
      · exact bad hd
    split at hd
    · rename_i h4
      simp only [Bool.and_eq_true, decide_eq_true_eq] at h4
      split at hd
      · rename_i b1 b2 b3 t'
        simp only at hd
        generalize hlo : (if b0 = 0xF0 then 0x90 else 0x80) = lo at hd
        generalize hhi : (if b0 = 0xF4 then 0x8F else 0xBF) = hi at hd
        split at hd
        · rename_i h5
          simp only [Prod.mk.injEq, List.length_cons] at hd
          have : t' = [] := List.length_eq_zero_iff.1 (by omega)
          subst this
          simp only [isCont, Bool.and_eq_true, decide_eq_true_eq] at h5
          right; right; right
          refine ⟨b0, b1, b2, b3, by simp [hd.1.symm], by omega, by omega, ?_, ?_, ?_, ?_, by omega, by omega,
            by omega, by omega⟩
          · split at hlo <;> omega
          · split at hhi <;> omega
          · intro h0; rw [if_pos h0] at hlo; omega
          · intro h0; rw [if_pos h0] at hhi; omega
        · exact bad hd
      · exact bad hd
    · exact bad hd

theorem valid_range {c : Ch} (h : Valid c) (hn : ¬ (c.r = runeError ∧ c.b.length = 1)) : c.r < 0x110000 := by
  rcases valid_shape h hn with ⟨b, rfl, _⟩ | ⟨a, b, rfl, _⟩ | ⟨a, b, d, rfl, _⟩ | ⟨a, b, d, e, rfl, _⟩ <;>
    simp only <;> omega

set_option maxHeartbeats 2000000 in
theorem valid_inj {c c' : Ch} (h : Valid c) (hn : ¬ (c.r = runeError ∧ c.b.length = 1)) (h' : Valid c')
    (hn' : ¬ (c'.r = runeError ∧ c'.b.length = 1)) (e : c.r = c'.r) : c = c' := by
  rcases valid_shape h hn with ⟨b, rfl, _⟩ | ⟨a, b, rfl, _⟩ | ⟨a, b, d, rfl, _⟩ | ⟨a, b, d, f, rfl, _⟩ <;>
  rcases valid_shape h' hn' with ⟨b', rfl, _⟩ | ⟨a', b', rfl, _⟩ | ⟨a', b', d', rfl, _⟩ | ⟨a', b', d', f', rfl, _⟩ <;>
    clear h h' hn hn' <;> simp only [Ch.mk.injEq, List.cons.injEq, and_true, reduceCtorEq, and_false] at * <;> omega

/-! ## Quoted strings -/

/-- The value of a hexadecimal digit. -/
def unhex (d : Nat) : Nat := if d < 58 then d - 48 else d - 87

theorem unhex_hexDigit {n : Nat} (h : n < 16) : unhex (hexDigit n) = n := by
  unfold hexDigit unhex; split <;> split <;> omega

/-- Read one escaped character: is it an invalid byte, its value, and the rest. -/
def unesc (l : List Nat) : Option (Bool × Nat × List Nat) :=
  match l with
  | [] => none
  | b :: t =>
    if b = 92 then
      match t with
      | 120 :: a :: c :: t => some (decide (128 ≤ unhex a * 16 + unhex c), unhex a * 16 + unhex c, t)
      | 117 :: a :: c :: d :: e :: t =>
        some (false, ((unhex a * 16 + unhex c) * 16 + unhex d) * 16 + unhex e, t)
      | 85 :: a :: c :: d :: e :: f :: g :: h :: i :: t =>
        some (false, ((((((unhex a * 16 + unhex c) * 16 + unhex d) * 16 + unhex e) * 16 + unhex f) * 16 +
          unhex g) * 16 + unhex h) * 16 + unhex i, t)
      | 97 :: t => some (false, 7, t)
      | 98 :: t => some (false, 8, t)
      | 102 :: t => some (false, 12, t)
      | 110 :: t => some (false, 10, t)
      | 114 :: t => some (false, 13, t)
      | 116 :: t => some (false, 9, t)
      | 118 :: t => some (false, 11, t)
      | c :: t => some (false, c, t)
      | [] => none
    else some (false, (decodeRune b t).1, (b :: t).drop (decodeRune b t).2)

/-- What `unesc` reads from an escaped character. -/
def descr (c : Ch) : Bool × Nat :=
  if c.r = runeError ∧ c.b.length = 1 then (true, c.b.headD 0) else (false, c.r)

/-- A character decoded from a string of bytes. -/
def Good (c : Ch) : Prop := (∃ b, c = ⟨runeError, [b]⟩ ∧ 128 ≤ b ∧ b < 256) ∨
    (Valid c ∧ ¬ (c.r = runeError ∧ c.b.length = 1))

theorem decode_good {s : GoString} (h : ∀ b ∈ s, b < 256) : ∀ c ∈ decode s, Good c := by
  intro c hc
  rcases decode_valid s c hc with ⟨⟨b, rfl, hb⟩, b', h1, h2⟩ | h1
  · simp only [List.cons.injEq, and_true] at h2
    subst h2
    exact .inl ⟨b, rfl, hb, h b h1⟩
  · exact .inr h1

theorem descr_inj {c c' : Ch} (h : Good c) (h' : Good c') (e : descr c = descr c') : c = c' := by
  unfold descr at e
  rcases h with ⟨b, rfl, _⟩ | ⟨h, hn⟩ <;> rcases h' with ⟨b', rfl, _⟩ | ⟨h', hn'⟩
  · simpa using e
  · rw [if_neg hn'] at e; simp at e
  · rw [if_neg hn] at e; simp at e
  · rw [if_neg hn, if_neg hn'] at e
    simp only [Prod.mk.injEq, true_and] at e
    exact valid_inj h hn h' hn' e

theorem unesc_escape {Pr : Nat → Bool} {c : Ch} (h : Good c) (y : List Nat) :
    unesc (escape Pr c ++ y) = some ((descr c).1, (descr c).2, y) := by
  rcases h with ⟨b, rfl, h1, h2⟩ | ⟨h, hn⟩
  · have e1 : unhex (hexDigit (b / 16 % 16)) = b / 16 % 16 := unhex_hexDigit (by omega)
    have e2 : unhex (hexDigit (b % 16)) = b % 16 := unhex_hexDigit (by omega)
    have e3 : b / 16 % 16 * 16 + b % 16 = b := by omega
    simp [escape, descr, hexN, unesc, e1, e2, e3, h1]
  · have hr := valid_range h hn
    unfold escape descr
    rw [if_neg hn, if_neg hn]
    obtain ⟨r, b⟩ := c
    simp only at *
    split
    · rename_i h0
      rcases h0 with rfl | rfl <;> simp [unesc]
    rename_i h0
    simp only [not_or] at h0
    split
    · cases b with
      | nil => exact absurd rfl h.ne
      | cons b0 t =>
        have hd := h.dec b0 t y rfl
        have hb : b0 ≠ 92 := by
          rintro rfl
          rw [decodeRune_ascii _ (by omega)] at hd
          simp only [Prod.mk.injEq] at hd
          omega
        simp [unesc, hb, hd]
    have e : ∀ n, unhex (hexDigit (n % 16)) = n % 16 := fun n => unhex_hexDigit (by omega)
    split
    · subst_vars; simp [unesc]
    split
    · subst_vars; simp [unesc]
    split
    · subst_vars; simp [unesc]
    split
    · subst_vars; simp [unesc]
    split
    · subst_vars; simp [unesc]
    split
    · subst_vars; simp [unesc]
    split
    · subst_vars; simp [unesc]
    split
    · have e3 : r / 16 % 16 * 16 + r % 16 = r := by omega
      have e4 : ¬ 128 ≤ r := by omega
      simp [hexN, unesc, e, e3, e4]
    split
    · have e3 : ((r / 16 / 16 / 16 % 16 * 16 + r / 16 / 16 % 16) * 16 + r / 16 % 16) * 16 + r % 16 = r := by omega
      simp [hexN, unesc, e]
      omega
    · simp [hexN, unesc, e]
      omega

theorem escape_ne_quote {Pr : Nat → Bool} {c : Ch} (h : Good c) : ∃ b t, escape Pr c = b :: t ∧ b ≠ 34 := by
  generalize he : escape Pr c = e
  unfold escape at he
  by_cases h1 : c.r = runeError ∧ c.b.length = 1
  · rw [if_pos h1] at he; exact ⟨_, _, he.symm, by decide⟩
  rw [if_neg h1] at he
  have hv : Valid c := by
    rcases h with ⟨b, rfl, _⟩ | ⟨h, _⟩
    · exact absurd (by simp) h1
    · exact h
  by_cases h2 : c.r = ch!"\"" ∨ c.r = ch!"\\"
  · rw [if_pos h2] at he; exact ⟨_, _, he.symm, by decide⟩
  rw [if_neg h2] at he
  simp only [not_or] at h2
  by_cases h3 : isPrint Pr c.r = true
  · rw [if_pos h3] at he
    obtain ⟨r, b⟩ := c
    cases b with
    | nil => exact absurd rfl hv.ne
    | cons b0 t =>
      refine ⟨b0, t, he.symm, ?_⟩
      rintro rfl
      have hd := hv.dec 34 t [] rfl
      rw [decodeRune_ascii _ (by omega)] at hd
      simp only [Prod.mk.injEq] at hd
      exact h2.1 hd.1.symm
  rw [if_neg h3] at he
  have bs : ∀ (u : List Nat), 92 :: u = e → ∃ b t, e = b :: t ∧ b ≠ 34 := by
    rintro u rfl; exact ⟨_, _, rfl, by decide⟩
  by_cases k1 : c.r = 7
  · rw [if_pos k1] at he; exact bs _ he
  rw [if_neg k1] at he
  by_cases k1 : c.r = 8
  · rw [if_pos k1] at he; exact bs _ he
  rw [if_neg k1] at he
  by_cases k1 : c.r = 12
  · rw [if_pos k1] at he; exact bs _ he
  rw [if_neg k1] at he
  by_cases k1 : c.r = 10
  · rw [if_pos k1] at he; exact bs _ he
  rw [if_neg k1] at he
  by_cases k1 : c.r = 13
  · rw [if_pos k1] at he; exact bs _ he
  rw [if_neg k1] at he
  by_cases k1 : c.r = 9
  · rw [if_pos k1] at he; exact bs _ he
  rw [if_neg k1] at he
  by_cases k1 : c.r = 11
  · rw [if_pos k1] at he; exact bs _ he
  rw [if_neg k1] at he
  by_cases k1 : c.r < 32 ∨ c.r = 127
  · rw [if_pos k1] at he; exact bs _ he
  rw [if_neg k1] at he
  by_cases k1 : c.r < 0x10000
  · rw [if_pos k1] at he; exact bs _ he
  rw [if_neg k1] at he
  exact bs _ he

theorem escapes_inj {Pr : Nat → Bool} : ∀ {a b : List Ch} {y z : List Nat}, (∀ c ∈ a, Good c) → (∀ c ∈ b, Good c) →
    a.flatMap (escape Pr) ++ 34 :: y = b.flatMap (escape Pr) ++ 34 :: z → a = b ∧ y = z
  | [], [], y, z, _, _, h => by simpa using h
  | [], c :: b, y, z, _, hb, h => by
    obtain ⟨x, t, e, hx⟩ := escape_ne_quote (Pr := Pr) (hb c (by simp))
    simp [e] at h
    exact absurd h.1.symm hx
  | c :: a, [], y, z, ha, _, h => by
    obtain ⟨x, t, e, hx⟩ := escape_ne_quote (Pr := Pr) (ha c (by simp))
    simp [e] at h
    exact absurd h.1 hx
  | c :: a, d :: b, y, z, ha, hb, h => by
    simp only [List.flatMap_cons, List.append_assoc] at h
    have h1 := unesc_escape (Pr := Pr) (ha c (by simp)) (a.flatMap (escape Pr) ++ 34 :: y)
    have h2 := unesc_escape (Pr := Pr) (hb d (by simp)) (b.flatMap (escape Pr) ++ 34 :: z)
    rw [h, h2] at h1
    simp only [Option.some.injEq, Prod.mk.injEq] at h1
    obtain rfl := descr_inj (ha c (by simp)) (hb d (by simp)) (Prod.ext h1.1.symm h1.2.1.symm)
    obtain ⟨rfl, rfl⟩ := escapes_inj (fun e he => ha e (by simp [he])) (fun e he => hb e (by simp [he])) h1.2.2.symm
    exact ⟨rfl, rfl⟩

theorem quote_inj {Pr : Nat → Bool} {s t : GoString} {y z : List Nat} (hs : ∀ b ∈ s, b < 256)
    (ht : ∀ b ∈ t, b < 256) (h : quote Pr s ++ y = quote Pr t ++ z) : s = t ∧ y = z := by
  unfold quote at h
  simp only [List.cons_append, List.nil_append, List.append_assoc, List.cons.injEq, true_and] at h
  obtain ⟨h1, h2⟩ := escapes_inj (decode_good hs) (decode_good ht) h
  have := congrArg bytesOf h1
  rw [bytesOf_decode, bytesOf_decode] at this
  exact ⟨this, h2⟩

/-! ## Trees -/

/-- The named macros: `Print` does not panic. -/
theorem print_first {Pr : Nat → Bool} {n : Node} {t : GoString} (h : print Pr n = .ok t) :
    ∃ b u, t = b :: u ∧ (b = 97 ∨ b = 123 ∨ b = 91 ∨ b = 60) := by
  unfold print at h
  split at h
  all_goals try (split at h)
  all_goals simp only [Res.bind_eq_ok, Res.ok.injEq, reduceCtorEq] at h
  all_goals
    first
    | (subst h; exact ⟨_, _, rfl, by simp⟩)
    | (obtain ⟨_, _, h⟩ := h; subst h; exact ⟨_, _, rfl, by simp⟩)
    | (obtain ⟨_, _, _, _, h⟩ := h; subst h; exact ⟨_, _, rfl, by simp⟩)

/-- Injectivity of `print` at one node, whatever follows. -/
def PInj (Pr : Nat → Bool) (n : Node) : Prop := ∀ (m : Node) (t u y z : GoString), ByteTexts n → ByteTexts m →
  print Pr n = .ok t → print Pr m = .ok u → t ++ y = u ++ z → bare n = bare m ∧ y = z

theorem byteTexts_list {n : Node} {l : List Node} (h : ∀ q ∈ leavesL (n :: l), ∀ b ∈ q.2, b < 256) :
    ByteTexts n ∧ ∀ q ∈ leavesL l, ∀ b ∈ q.2, b < 256 := by
  simp only [leavesL, List.mem_append] at h
  exact ⟨fun q hq => h q (.inl hq), fun q hq => h q (.inr hq)⟩

theorem printMore_inj {Pr : Nat → Bool} : ∀ {l l' : List Node} {t u : GoString} {c d : Nat} {y z : GoString},
    (∀ n ∈ l, PInj Pr n) → (∀ q ∈ leavesL l, ∀ b ∈ q.2, b < 256) → (∀ q ∈ leavesL l', ∀ b ∈ q.2, b < 256) →
    printMore Pr l = .ok t → printMore Pr l' = .ok u → c = 125 ∨ c = 93 → d = 125 ∨ d = 93 →
    t ++ c :: y = u ++ d :: z → bareL l = bareL l' ∧ c :: y = d :: z
  | [], [], t, u, c, d, y, z, _, _, _, h1, h2, _, _, h => by
    simp only [printMore, Res.ok.injEq] at h1 h2
    subst h1 h2
    exact ⟨rfl, h⟩
  | [], n :: l', t, u, c, d, y, z, _, _, _, h1, h2, hc, _, h => by
    simp only [printMore, Res.ok.injEq, Res.bind_eq_ok] at h1 h2
    obtain ⟨_, _, _, _, rfl⟩ := h2
    subst h1
    simp only [List.nil_append, List.cons_append, List.cons.injEq] at h
    omega
  | n :: l, [], t, u, c, d, y, z, _, _, _, h1, h2, _, hd, h => by
    simp only [printMore, Res.ok.injEq, Res.bind_eq_ok] at h1 h2
    obtain ⟨_, _, _, _, rfl⟩ := h1
    subst h2
    simp only [List.nil_append, List.cons_append, List.cons.injEq] at h
    omega
  | n :: l, m :: l', t, u, c, d, y, z, hi, hb, hb', h1, h2, hc, hd, h => by
    simp only [printMore, Res.ok.injEq, Res.bind_eq_ok] at h1 h2
    obtain ⟨t1, p1, t2, p2, rfl⟩ := h1
    obtain ⟨u1, q1, u2, q2, rfl⟩ := h2
    simp only [List.nil_append, List.cons_append, List.cons.injEq, true_and, List.append_assoc] at h
    obtain ⟨e1, h⟩ := hi n (by simp) m t1 u1 _ _ (byteTexts_list hb).1 (byteTexts_list hb').1 p1 q1 h
    obtain ⟨e2, h⟩ := printMore_inj (fun k hk => hi k (by simp [hk])) (byteTexts_list hb).2 (byteTexts_list hb').2
      p2 q2 hc hd h
    exact ⟨by simp [bareL, e1, e2], h⟩

theorem printList_inj {Pr : Nat → Bool} {l l' : List Node} {t u : GoString} {c d : Nat} {y z : GoString}
    (hi : ∀ n ∈ l, PInj Pr n) (hb : ∀ q ∈ leavesL l, ∀ b ∈ q.2, b < 256) (hb' : ∀ q ∈ leavesL l', ∀ b ∈ q.2, b < 256)
    (h1 : printList Pr l = .ok t) (h2 : printList Pr l' = .ok u) (hc : c = 125 ∨ c = 93) (hd : d = 125 ∨ d = 93)
    (h : t ++ c :: y = u ++ d :: z) : bareL l = bareL l' ∧ c :: y = d :: z := by
  match l, l' with
  | [], [] =>
    simp only [printList, Res.ok.injEq] at h1 h2
    subst h1 h2
    exact ⟨rfl, h⟩
  | [], n :: l' =>
    simp only [printList, Res.ok.injEq, Res.bind_eq_ok] at h1 h2
    obtain ⟨u1, q1, u2, q2, rfl⟩ := h2
    subst h1
    obtain ⟨b, v, rfl, hv⟩ := print_first q1
    simp only [List.nil_append, List.cons_append, List.cons.injEq] at h
    omega
  | n :: l, [] =>
    simp only [printList, Res.ok.injEq, Res.bind_eq_ok] at h1 h2
    obtain ⟨u1, q1, u2, q2, rfl⟩ := h1
    subst h2
    obtain ⟨b, v, rfl, hv⟩ := print_first q1
    simp only [List.nil_append, List.cons_append, List.cons.injEq] at h
    omega
  | n :: l, m :: l' =>
    simp only [printList, Res.ok.injEq, Res.bind_eq_ok] at h1 h2
    obtain ⟨t1, p1, t2, p2, rfl⟩ := h1
    obtain ⟨u1, q1, u2, q2, rfl⟩ := h2
    simp only [List.append_assoc] at h
    obtain ⟨e1, h⟩ := hi n (by simp) m t1 u1 _ _ (byteTexts_list hb).1 (byteTexts_list hb').1 p1 q1 h
    obtain ⟨e2, h⟩ := printMore_inj (fun k hk => hi k (by simp [hk])) (byteTexts_list hb).2 (byteTexts_list hb').2
      p2 q2 hc hd h
    exact ⟨by simp [bareL, e1, e2], h⟩

/-- `print` by cases, with the arguments of macros and math expressions in one form. -/
def head : Node → GoString
  | .arg .. => bs!"{"
  | .ident .. => bs!"ast.Ident{"
  | .macro .. => bs!"ast.Macro{"
  | .math .. => bs!"ast.MathExpr{"
  | .optArg .. => bs!"["
  | .word .. => bs!"ast.Word{"
  | .lit .. => bs!"ast.Lit{"
  | .list .. => bs!"ast.List{"
  | .sub .. => bs!"ast.Sub{"
  | .sup .. => bs!"ast.Sup{"
  | .sym .. => bs!"ast.Symbol{"
  | .nil => bs!"<nil>"

/-- Number of the constructor. -/
def ctor : Node → Nat
  | .nil => 0 | .list .. => 1 | .macro .. => 2 | .arg .. => 3 | .optArg .. => 4 | .ident .. => 5 | .math .. => 6
  | .word .. => 7 | .lit .. => 8 | .sym .. => 9 | .sub .. => 10 | .sup .. => 11

theorem print_head {Pr : Nat → Bool} {n : Node} {t : GoString} (h : print Pr n = .ok t) : ∃ u, t = head n ++ u := by
  unfold print at h
  split at h
  all_goals try (split at h)
  all_goals simp only [Res.bind_eq_ok, Res.ok.injEq, reduceCtorEq] at h
  all_goals
    first
    | (subst h; exact ⟨_, rfl⟩)
    | (obtain ⟨_, _, h⟩ := h; subst h; exact ⟨_, rfl⟩)
    | (obtain ⟨_, _, _, _, h⟩ := h; subst h; exact ⟨_, rfl⟩)

theorem head_ctor {n m : Node} {y z : GoString} (h : head n ++ y = head m ++ z) : ctor n = ctor m := by
  cases n <;> cases m <;> first | rfl | simp [head] at h

theorem print_inj {Pr : Nat → Bool} (n : Node) : PInj Pr n := by
  induction h : sizeOf n using Nat.strongRecOn generalizing n with
  | _ k ih =>
    intro m t u y z hb hb' h1 h2 he
    have hl : ∀ l : List Node, sizeOf l < k → ∀ x ∈ l, PInj Pr x := by
      intro l hlk x hx
      have := List.sizeOf_lt_of_mem hx
      exact ih (sizeOf x) (by omega) x rfl
    have hc : ctor n = ctor m := by
      obtain ⟨t', rfl⟩ := print_head h1
      obtain ⟨u', rfl⟩ := print_head h2
      rw [List.append_assoc, List.append_assoc] at he
      exact head_ctor he
    have same : ∀ {c : Nat} {y z : GoString}, c :: y = c :: z → y = z := by
      intro c y z h; simpa using h
    cases n <;> cases m <;> simp only [ctor, reduceCtorEq, Nat.reduceEqDiff] at hc
    case nil.nil =>
      simp only [print, Res.ok.injEq] at h1 h2
      subst h1 h2
      exact ⟨rfl, List.append_cancel_left he⟩
    case list.list l l' =>
      simp only [print, Res.ok.injEq, Res.bind_eq_ok] at h1 h2
      obtain ⟨t1, p1, rfl⟩ := h1
      obtain ⟨u1, q1, rfl⟩ := h2
      simp only [List.nil_append, List.cons_append, List.append_assoc, List.cons.injEq, true_and] at he
      obtain ⟨e, he⟩ := printList_inj (hl l (by simp at h; omega)) hb hb' p1 q1 (.inl rfl) (.inl rfl) he
      exact ⟨by simp [bare, e], same he⟩
    case macro.macro nm args nm' args' =>
      rcases nm with _ | ⟨p, name⟩
      · simp [print] at h1
      rcases nm' with _ | ⟨p', name'⟩
      · simp [print] at h2
      have hn : ∀ b ∈ name, b < 256 := hb (p, name) (by simp [leaves])
      have hn' : ∀ b ∈ name', b < 256 := hb' (p', name') (by simp [leaves])
      match args, args' with
      | [], [] =>
        simp only [print, Res.ok.injEq] at h1 h2
        subst h1 h2
        simp only [List.nil_append, List.cons_append, List.append_assoc, List.cons.injEq, true_and] at he
        obtain ⟨e0, he2⟩ := quote_inj hn hn' he; clear he; have he := he2; clear he2; subst e0
        exact ⟨by simp [bare, bareL], same he⟩
      | [], c :: l =>
        simp only [print, Res.ok.injEq, Res.bind_eq_ok] at h1 h2
        obtain ⟨_, _, _, _, rfl⟩ := h2
        subst h1
        simp only [List.nil_append, List.cons_append, List.append_assoc, List.cons.injEq, true_and] at he
        obtain ⟨e0, he2⟩ := quote_inj hn hn' he; clear he; have he := he2; clear he2; subst e0
        simp at he
      | c :: l, [] =>
        simp only [print, Res.ok.injEq, Res.bind_eq_ok] at h1 h2
        obtain ⟨_, _, _, _, rfl⟩ := h1
        subst h2
        simp only [List.nil_append, List.cons_append, List.append_assoc, List.cons.injEq, true_and] at he
        obtain ⟨e0, he2⟩ := quote_inj hn hn' he; clear he; have he := he2; clear he2; subst e0
        simp at he
      | c :: l, c' :: l' =>
        simp only [print, Res.ok.injEq, Res.bind_eq_ok] at h1 h2
        obtain ⟨t1, p1, t2, p2, rfl⟩ := h1
        obtain ⟨u1, q1, u2, q2, rfl⟩ := h2
        simp only [List.nil_append, List.cons_append, List.append_assoc, List.cons.injEq, true_and] at he
        obtain ⟨e0, he2⟩ := quote_inj hn hn' he; clear he; have he := he2; clear he2; subst e0
        simp only [List.cons.injEq, true_and] at he
        rw [← List.append_assoc, ← List.append_assoc] at he
        have p : printList Pr (c :: l) = .ok (t1 ++ t2) := by simp [printList, p1, p2]
        have q : printList Pr (c' :: l') = .ok (u1 ++ u2) := by simp [printList, q1, q2]
        obtain ⟨e, he⟩ := printList_inj (hl (c :: l) (by simp at h ⊢; omega))
          (fun q hq => hb q (by simp [leaves, hq])) (fun q hq => hb' q (by simp [leaves, hq]))
          p q (.inl rfl) (.inl rfl) he
        exact ⟨by simp only [bare, Option.map, e], same he⟩
    case arg.arg a l b a' l' b' =>
      simp only [print, Res.ok.injEq, Res.bind_eq_ok] at h1 h2
      obtain ⟨t1, p1, rfl⟩ := h1
      obtain ⟨u1, q1, rfl⟩ := h2
      simp only [List.nil_append, List.cons_append, List.append_assoc, List.cons.injEq, true_and] at he
      obtain ⟨e, he⟩ := printList_inj (hl l (by simp at h; omega)) hb hb' p1 q1 (.inl rfl) (.inl rfl) he
      exact ⟨by simp [bare, e], same he⟩
    case optArg.optArg a l b a' l' b' =>
      simp only [print, Res.ok.injEq, Res.bind_eq_ok] at h1 h2
      obtain ⟨t1, p1, rfl⟩ := h1
      obtain ⟨u1, q1, rfl⟩ := h2
      simp only [List.nil_append, List.cons_append, List.append_assoc, List.cons.injEq, true_and] at he
      obtain ⟨e, he⟩ := printList_inj (hl l (by simp at h; omega)) hb hb' p1 q1 (.inr rfl) (.inr rfl) he
      exact ⟨by simp [bare, e], same he⟩
    case math.math d a l b d' a' l' b' =>
      match l, l' with
      | [], [] =>
        simp only [print, Res.ok.injEq] at h1 h2
        subst h1 h2
        exact ⟨by simp [bare, bareL], List.append_cancel_left he⟩
      | [], c :: l =>
        simp only [print, Res.ok.injEq, Res.bind_eq_ok] at h1 h2
        obtain ⟨_, _, _, _, rfl⟩ := h2
        subst h1
        simp at he
      | c :: l, [] =>
        simp only [print, Res.ok.injEq, Res.bind_eq_ok] at h1 h2
        obtain ⟨_, _, _, _, rfl⟩ := h1
        subst h2
        simp at he
      | c :: l, c' :: l' =>
        simp only [print, Res.ok.injEq, Res.bind_eq_ok] at h1 h2
        obtain ⟨t1, p1, t2, p2, rfl⟩ := h1
        obtain ⟨u1, q1, u2, q2, rfl⟩ := h2
        simp only [List.nil_append, List.cons_append, List.append_assoc, List.cons.injEq, true_and] at he
        rw [← List.append_assoc, ← List.append_assoc] at he
        have p : printList Pr (c :: l) = .ok (t1 ++ t2) := by simp [printList, p1, p2]
        have q : printList Pr (c' :: l') = .ok (u1 ++ u2) := by simp [printList, q1, q2]
        obtain ⟨e, he⟩ := printList_inj (hl (c :: l) (by simp at h ⊢; omega)) hb hb' p q (.inl rfl) (.inl rfl) he
        exact ⟨by simp only [bare, e], same he⟩
    case sub.sub p n p' m =>
      simp only [print, Res.ok.injEq, Res.bind_eq_ok] at h1 h2
      obtain ⟨t1, p1, rfl⟩ := h1
      obtain ⟨u1, q1, rfl⟩ := h2
      simp only [List.nil_append, List.cons_append, List.append_assoc, List.cons.injEq, true_and] at he
      obtain ⟨e, he⟩ := ih (sizeOf n) (by simp at h; omega) n rfl m _ _ _ _ hb hb' p1 q1 he
      exact ⟨by simp [bare, e], same he⟩
    case sup.sup p n p' m =>
      simp only [print, Res.ok.injEq, Res.bind_eq_ok] at h1 h2
      obtain ⟨t1, p1, rfl⟩ := h1
      obtain ⟨u1, q1, rfl⟩ := h2
      simp only [List.nil_append, List.cons_append, List.append_assoc, List.cons.injEq, true_and] at he
      obtain ⟨e, he⟩ := ih (sizeOf n) (by simp at h; omega) n rfl m _ _ _ _ hb hb' p1 q1 he
      exact ⟨by simp [bare, e], same he⟩
    all_goals
      rename_i p x p' x'
      simp only [print, Res.ok.injEq] at h1 h2
      subst h1 h2
      simp only [List.nil_append, List.cons_append, List.append_assoc, List.cons.injEq, true_and] at he
      obtain ⟨e0, he2⟩ := quote_inj (hb (p, x) (by simp [leaves])) (hb' (p', x') (by simp [leaves])) he
      clear he; have he := he2; clear he2
      simp only at e0; subst e0
      exact ⟨by simp [bare], same he⟩

end Verif
