import Verif.Model.Utf8
/-! # Facts about decoding -/

namespace Verif

private theorem ite_pair (p : Prop) [Decidable p] (a b k n : Nat) (h1 : 1 ≤ k) (h : k ≤ n) :
    1 ≤ (if p then (a, k) else (b, 1)).2 ∧ (if p then (a, k) else (b, 1)).2 ≤ n := by
  split <;> simp <;> omega

private theorem ite_lt {p : Prop} [Decidable p] {a k n : Nat}
    (h : (if p then (a, k) else (65533, n)).1 < 128) : p ∧ a < 128 := by
  split at h <;> simp at h; constructor <;> assumption

theorem decodeRune_width (b0 : Nat) (t : List Nat) :
    1 ≤ (decodeRune b0 t).2 ∧ (decodeRune b0 t).2 ≤ t.length + 1 := by
  unfold decodeRune
  split
  · simp
  split
  · split
    · split <;> simp
    · simp
  split
  · split
    · exact ite_pair _ _ _ _ _ (by omega) (by simp)
    · simp
  split
  · split
    · exact ite_pair _ _ _ _ _ (by omega) (by simp)
    · simp
  · simp

theorem decodeRune_ascii {b0 : Nat} (t : List Nat) (h : b0 < 0x80) :
    decodeRune b0 t = (b0, 1) := by simp [decodeRune, h]

/-- An ASCII rune comes from a single byte. -/
theorem decodeRune_lt {b0 : Nat} {t : List Nat} (h : (decodeRune b0 t).1 < 0x80) :
    b0 < 0x80 := by
  by_cases hb : b0 < 0x80
  · exact hb
  exfalso
  revert h
  unfold decodeRune
  simp only [hb, if_false, runeError]
  split
  · split
    · rename_i h1 _ b1 _
      simp only [Bool.and_eq_true, decide_eq_true_eq] at h1
      split <;> rename_i h2 <;> simp [isCont] at h2 ⊢
      omega
    · simp
  split
  · split
    · rename_i h1 _ b1 b2 _
      simp only [Bool.and_eq_true, decide_eq_true_eq] at h1
      intro h
      have ⟨h2, h3⟩ := ite_lt h
      simp only [isCont, Bool.and_eq_true, decide_eq_true_eq] at h2
      split at h2 <;> omega
    · simp
  split
  · split
    · rename_i h1 _ b1 b2 b3 _
      simp only [Bool.and_eq_true, decide_eq_true_eq] at h1
      intro h
      have ⟨h2, h3⟩ := ite_lt h
      simp only [isCont, Bool.and_eq_true, decide_eq_true_eq] at h2
      split at h2 <;> omega
    · simp
  · simp

/-- A character followed by an ASCII byte is decoded without looking past that byte. -/
theorem decodeRune_append {b0 : Nat} (t : List Nat) {c : Nat} (x : List Nat) (hc : c < 0x80) :
    decodeRune b0 (t ++ c :: x) = decodeRune b0 t := by
  have nc : isCont c = false := by simp [isCont]; omega
  have lo : ∀ l h : Nat, (if b0 = l then 0xA0 else 0x80) ≤ c → False := by
    intro l h; split <;> omega
  unfold decodeRune
  split
  · rfl
  split
  · match t with
    | [] => simp [nc]
    | b1 :: t => simp
  split
  · match t with
    | [] =>
      match x with
      | [] => simp
      | b2 :: x =>
        have : ¬ ((if b0 = 0xE0 then 0xA0 else 0x80) ≤ c) := by split <;> omega
        simp [this]
    | [b1] => simp [nc]
    | b1 :: b2 :: t => simp
  split
  · match t with
    | [] =>
      match x with
      | [] => simp
      | [b2] => simp
      | b2 :: b3 :: x =>
        have : ¬ ((if b0 = 0xF0 then 0x90 else 0x80) ≤ c) := by split <;> omega
        simp [this]
    | [b1] =>
      match x with
      | [] => simp
      | b3 :: x => simp [nc]
    | [b1, b2] => simp [nc]
    | b1 :: b2 :: b3 :: t => simp
  · rfl

theorem decodeN_fuel : ∀ (n m : Nat) (bs : List Nat), bs.length ≤ n → bs.length ≤ m →
    decodeN n bs = decodeN m bs := by
  intro n
  induction n with
  | zero => intro m bs h1 _; cases bs <;> cases m <;> simp_all [decodeN]
  | succ n ih =>
    intro m bs h1 h2
    cases bs with
    | nil => cases m <;> simp [decodeN]
    | cons b0 t =>
      cases m with
      | zero => simp at h2
      | succ m =>
        simp only [decodeN]
        have hw := decodeRune_width b0 t
        simp only [List.length_cons] at h1 h2
        rw [ih m]
        · simp; omega
        · simp; omega

theorem decode_cons (b0 : Nat) (t : List Nat) :
    decode (b0 :: t) = ⟨(decodeRune b0 t).1, (b0 :: t).take (decodeRune b0 t).2⟩ ::
      decode ((b0 :: t).drop (decodeRune b0 t).2) := by
  have hw := decodeRune_width b0 t
  unfold decode
  simp only [List.length_cons, decodeN]
  rw [decodeN_fuel]
  · simp; omega
  · exact Nat.le_refl _

@[simp] theorem decode_nil : decode [] = [] := rfl

theorem decode_ascii_cons {b : Nat} (t : List Nat) (h : b < 0x80) :
    decode (b :: t) = ⟨b, [b]⟩ :: decode t := by
  rw [decode_cons, decodeRune_ascii t h]; rfl

/-- The runes of a source cover exactly its bytes. -/
theorem bytesOf_decode (bs : List Nat) : bytesOf (decode bs) = bs := by
  induction h : bs.length using Nat.strongRecOn generalizing bs with
  | _ n ih =>
    cases bs with
    | nil => rfl
    | cons b0 t =>
      have hw := decodeRune_width b0 t
      rw [decode_cons]
      show List.take _ _ ++ bytesOf _ = _
      rw [ih _ _ _ rfl]
      · exact List.take_append_drop _ _
      · subst h; simp; omega

/-- Well-formedness of a decoded character: non-empty, and ASCII runes are single bytes. -/
def Ch.WF (c : Ch) : Prop := c.b ≠ [] ∧ (c.r < 0x80 → c.b = [c.r])

theorem decode_wf (bs : List Nat) : ∀ c ∈ decode bs, c.WF := by
  induction h : bs.length using Nat.strongRecOn generalizing bs with
  | _ n ih =>
    cases bs with
    | nil => simp
    | cons b0 t =>
      have hw := decodeRune_width b0 t
      rw [decode_cons]
      intro c hc
      rcases List.mem_cons.1 hc with rfl | hc
      · constructor
        · simp; omega
        · intro hr
          have hb := decodeRune_lt hr
          simp [decodeRune_ascii t hb]
      · refine ih _ ?_ _ rfl c hc
        subst h; simp; omega

theorem decode_append (a : List Nat) {c : Nat} (x : List Nat) (hc : c < 0x80) :
    decode (a ++ c :: x) = decode a ++ decode (c :: x) := by
  induction h : a.length using Nat.strongRecOn generalizing a with
  | _ n ih =>
    cases a with
    | nil => rfl
    | cons b0 t =>
      have hw := decodeRune_width b0 t
      rw [List.cons_append, decode_cons, decode_cons, decodeRune_append t x hc]
      have h1 : (b0 :: (t ++ c :: x)).take (decodeRune b0 t).2
          = (b0 :: t).take (decodeRune b0 t).2 := by
        rw [← List.cons_append, List.take_append_of_le_length]; simp; omega
      have h2 : (b0 :: (t ++ c :: x)).drop (decodeRune b0 t).2
          = (b0 :: t).drop (decodeRune b0 t).2 ++ c :: x := by
        rw [← List.cons_append, List.drop_append_of_le_length]; simp; omega
      rw [h1, h2, ih _ _ _ rfl]
      · rfl
      · subst h; simp; omega

/-- Characters of an ASCII string. -/
def ascii (s : List Nat) : List Ch := s.map fun b => ⟨b, [b]⟩

theorem decode_ascii_append {s : List Nat} (h : ∀ b ∈ s, b < 0x80) (t : List Nat) :
    decode (s ++ t) = ascii s ++ decode t := by
  induction s with
  | nil => rfl
  | cons b s ih =>
    rw [List.cons_append, decode_ascii_cons _ (h b (by simp)), ih (fun b hb => h b (by simp [hb]))]
    rfl

theorem decode_ascii {s : List Nat} (h : ∀ b ∈ s, b < 0x80) : decode s = ascii s := by
  have := decode_ascii_append h []
  simpa using this

@[simp] theorem bytesOf_nil : bytesOf [] = [] := rfl
@[simp] theorem bytesOf_cons (c : Ch) (cs : List Ch) : bytesOf (c :: cs) = c.b ++ bytesOf cs := rfl
@[simp] theorem bytesOf_append (a b : List Ch) : bytesOf (a ++ b) = bytesOf a ++ bytesOf b := by
  simp [bytesOf]
@[simp] theorem bytesOf_ascii (s : List Nat) : bytesOf (ascii s) = s := by
  induction s with
  | nil => rfl
  | cons b s ih => show [b] ++ bytesOf (ascii s) = _; rw [ih]; rfl

end Verif
