import Verif.Lemmas.Parser
import Verif.Spec.Tree
/-! # Scanner states and tokens as positions in the source -/

namespace Verif
open Spec

/-- The scanner state `s` is a position in the source `x`. -/
def Src (x : GoString) (s : SS) : Prop :=
  ∃ pre, decode x = pre ++ s.rest ∧ s.off = (bytesOf pre).length

theorem Src.init (x : GoString) : Src x (SS.init x) := by
  unfold SS.init
  split
  · rename_i c cs h
    split
    · exact ⟨[c], by rw [h]; rfl, by simp⟩
    · exact ⟨[], by rw [h]; rfl, by simp⟩
  · rename_i h; exact ⟨[], by rw [h]; rfl, by simp⟩

theorem Src.wf {x s} (h : Src x s) : ∀ c ∈ s.rest, c.WF := by
  obtain ⟨pre, h1, _⟩ := h
  intro c hc
  exact decode_wf x c (by rw [h1]; simp [hc])

theorem Src.off_le {x s} (h : Src x s) : s.off ≤ x.length := by
  obtain ⟨pre, h1, h2⟩ := h
  have := congrArg (fun l => (bytesOf l).length) h1
  simp only [bytesOf_decode, bytesOf_append, List.length_append] at this
  omega

theorem Src.drop {x s} (h : Src x s) : x.drop s.off = bytesOf s.rest := by
  obtain ⟨pre, h1, h2⟩ := h
  have := congrArg bytesOf h1
  simp only [bytesOf_decode, bytesOf_append] at this
  rw [this, h2]; simp

/-- Advancing over a segment of the remaining characters. -/
theorem Src.advance {x : GoString} {s s' : SS} {mid : List Ch} (h : Src x s)
    (hr : s.rest = mid ++ s'.rest) (ho : s'.off = s.off + (bytesOf mid).length) :
    Src x s' ∧ slice x s.off s'.off = bytesOf mid := by
  obtain ⟨pre, h1, h2⟩ := h
  refine ⟨⟨pre ++ mid, by rw [h1, hr]; simp, by rw [ho, h2]; simp⟩, ?_⟩
  have := congrArg bytesOf h1
  rw [bytesOf_decode, hr] at this
  simp only [bytesOf_append] at this
  unfold slice
  rw [this, h2, ho, h2]
  simp

/-- `t` is the token of `x` that ends where `s` stands, read from the characters `body`. -/
structure TokAt (U : Nat → Bool) (x : GoString) (t : Token) (s : SS) (body : List Ch) : Prop where
  src : Src x s
  wf : ∀ c ∈ body, c.WF
  text : slice x t.pos s.off = bytesOf body
  off : s.off = t.pos + (bytesOf body).length
  shape : KindBody U t.kind t.text body
  /-- where the body starts -/
  start : Src x ⟨body ++ s.rest, t.pos⟩

theorem Src.scan {U x s t s'} (h : Src x s) (hs : scan U s = .ok (t, s')) :
    ∃ body, TokAt U x t s' body ∧ s.off ≤ t.pos := by
  obtain ⟨w, body, h1⟩ := scan_spec hs
  have hm : Src x ⟨body ++ s'.rest, t.pos⟩ :=
    (h.advance (s' := ⟨body ++ s'.rest, t.pos⟩) (mid := w) (by rw [h1.rest]; simp) h1.pos).1
  obtain ⟨h2, h3⟩ := hm.advance (s' := s') (mid := body) rfl h1.off
  refine ⟨body, ⟨h2, ?_, h3, h1.off, h1.shape, hm⟩, by have := h1.pos; omega⟩
  intro c hc
  exact h.wf c (by rw [h1.rest]; simp [hc])

theorem TokAt.lt {U x t s body} (h : TokAt U x t s body) (hb : body ≠ []) : t.pos < s.off := by
  rw [h.off]
  cases body with
  | nil => simp at hb
  | cons c body =>
    have : c.b.length ≠ 0 := by simpa using (h.wf c (by simp)).1
    simp only [bytesOf_cons, List.length_append]
    omega

theorem KindBody.ne_nil {U k text body} (h : KindBody U k text body) (hk : k ≠ .eof) : body ≠ [] := by
  rintro rfl
  unfold KindBody at h
  split at h <;> simp_all

theorem TokAt.pos_lt {U x t s body} (h : TokAt U x t s body) (hk : t.kind ≠ .eof) :
    t.pos < s.off := h.lt (h.shape.ne_nil hk)

/-- Single-character tokens. -/
theorem TokAt.single {U x t s body c r} (h : TokAt U x t s body) (hb : body = [c]) (ht : t.text = c.b)
    (hr : c.r = r) (hlt : r < 128) :
    t.text = [r] ∧ s.off = t.pos + 1 ∧ slice x t.pos (t.pos + 1) = [r] := by
  subst hb
  have := (h.wf c (by simp)).2 (by omega)
  rw [hr] at this
  have ho := h.off
  have hs := h.text
  simp [this] at ho hs
  refine ⟨by rw [ht, this], ho, by rw [← ho, hs]⟩

/-- Tokens that become leaves carry their source text. -/
theorem TokAt.leaf {U x t s body} (h : TokAt U x t s body)
    (hk : t.kind = .word ∨ t.kind = .number ∨ t.kind = .symbol ∨ t.kind = .lparen ∨ t.kind = .rparen ∨
      t.kind = .lbrack ∨ t.kind = .rbrack ∨ t.kind = .space ∨ t.kind = .lbrace ∨ t.kind = .rbrace) :
    t.text = bytesOf body := by
  have hs := h.shape
  rcases hk with hk | hk | hk | hk | hk | hk | hk | hk | hk | hk <;> rw [hk] at hs <;>
    simp only [KindBody] at hs
  · exact hs.1
  · exact hs.1
  iterate 5
    · obtain ⟨c, rfl, h1, _⟩ := hs
      simp [h1]
  · rcases hs with ⟨h1, c, rfl, h2⟩ | ⟨h1, c, d, rfl, h2, h3⟩
    · have := (h.wf c (by simp)).2 (by omega)
      simp [h1, this, h2]
    · have hc := (h.wf c (by simp)).2 (by omega)
      have hd := (h.wf d (by simp)).2 (by omega)
      simp [h1, hc, hd, h2, h3]
  · obtain ⟨c, rfl, h1, _⟩ := hs
    simp [h1]
  · obtain ⟨c, rfl, h1, _⟩ := hs
    simp [h1]

theorem TokAt.leaf_slice {U x t s body} (h : TokAt U x t s body) (ht : t.text = bytesOf body) :
    slice x t.pos (t.pos + t.text.length) = t.text ∧ s.off = t.pos + t.text.length := by
  have ho := h.off
  rw [← ht] at ho
  exact ⟨by rw [← ho, h.text, ht], ho⟩

/-- A token's text is no longer than its extent. -/
theorem TokAt.text_le {U x t s body} (h : TokAt U x t s body) (hk : t.kind = .macro) :
    0 < t.text.length ∧ t.pos + t.text.length ≤ s.off := by
  have hs := h.shape
  rw [hk] at hs
  obtain ⟨c, w, nm, rfl, h1, _, h2, _⟩ := hs
  have hc := (h.wf c (by simp)).2 (by omega)
  rw [h.off, h2]
  simp [hc]

/-! ## Decoding of segments -/

theorem decodeRune_take {b0 : Nat} (t u : List Nat) (h : (decodeRune b0 (t ++ u)).2 ≤ t.length + 1) :
    decodeRune b0 t = decodeRune b0 (t ++ u) := by
  revert h
  unfold decodeRune
  split
  · simp
  split
  · match t with
    | [] =>
      match u with
      | [] => simp
      | b1 :: u => cases hb : isCont b1 <;> simp [hb]
    | b1 :: t => simp
  split
  · match t with
    | [] =>
      match u with
      | [] => simp
      | [b1] => simp
      | b1 :: b2 :: u =>
        simp only [List.nil_append, List.length_nil]
        generalize (decide ((if b0 = 224 then 160 else 128) ≤ b1) && decide (b1 ≤ if b0 = 237 then 159 else 191) && isCont b2) = p
        cases p <;> simp
    | [b1] =>
      match u with
      | [] => simp
      | b2 :: u =>
        simp only [List.cons_append, List.nil_append, List.length_cons, List.length_nil]
        generalize (decide ((if b0 = 224 then 160 else 128) ≤ b1) && decide (b1 ≤ if b0 = 237 then 159 else 191) && isCont b2) = p
        cases p <;> simp
    | b1 :: b2 :: t => simp
  split
  · match t with
    | [] =>
      match u with
      | [] => simp
      | [b1] => simp
      | [b1, b2] => simp
      | b1 :: b2 :: b3 :: u =>
        simp only [List.nil_append, List.length_nil]
        generalize (decide ((if b0 = 240 then 144 else 128) ≤ b1) && decide (b1 ≤ if b0 = 244 then 143 else 191) && isCont b2 && isCont b3) = p
        cases p <;> simp
    | [b1] =>
      match u with
      | [] => simp
      | [b2] => simp
      | b2 :: b3 :: u =>
        simp only [List.cons_append, List.nil_append, List.length_cons, List.length_nil]
        generalize (decide ((if b0 = 240 then 144 else 128) ≤ b1) && decide (b1 ≤ if b0 = 244 then 143 else 191) && isCont b2 && isCont b3) = p
        cases p <;> simp
    | [b1, b2] =>
      match u with
      | [] => simp
      | b3 :: u =>
        simp only [List.cons_append, List.nil_append, List.length_cons, List.length_nil]
        generalize (decide ((if b0 = 240 then 144 else 128) ≤ b1) && decide (b1 ≤ if b0 = 244 then 143 else 191) && isCont b2 && isCont b3) = p
        cases p <;> simp
    | b1 :: b2 :: b3 :: t => simp
  · simp

/-- A suffix of the characters of a source is the decoding of its bytes. -/
theorem decode_suffix : ∀ (pre rest : List Ch) (x : GoString), decode x = pre ++ rest →
    decode (bytesOf rest) = rest := by
  intro pre
  induction pre with
  | nil =>
    intro rest x h
    simp only [List.nil_append] at h
    rw [← h, bytesOf_decode]
  | cons c pre ih =>
    intro rest x h
    cases x with
    | nil => simp at h
    | cons b0 t =>
      rw [decode_cons] at h
      simp only [List.cons_append] at h
      exact ih rest _ (List.cons.inj h).2

theorem decode_prefix : ∀ (seg post : List Ch), decode (bytesOf (seg ++ post)) = seg ++ post →
    decode (bytesOf seg) = seg := by
  intro seg
  induction seg with
  | nil => intros; rfl
  | cons c seg ih =>
    intro post h
    have hwf : c.WF := decode_wf (bytesOf (c :: seg ++ post)) c (by rw [h]; simp)
    obtain ⟨b0, t, hcb⟩ : ∃ b0 t, c.b = b0 :: t := by
      cases hb : c.b with
      | nil => exact absurd hb hwf.1
      | cons b0 t => exact ⟨b0, t, rfl⟩
    have hx : bytesOf (c :: seg ++ post) = b0 :: (t ++ bytesOf seg ++ bytesOf post) := by
      simp [hcb]
    have hx2 : bytesOf (c :: seg) = b0 :: (t ++ bytesOf seg) := by simp [hcb]
    rw [hx, decode_cons] at h
    simp only [List.cons_append, List.cons.injEq] at h
    obtain ⟨h1, h2⟩ := h
    have hw : (decodeRune b0 (t ++ bytesOf seg ++ bytesOf post)).2 = t.length + 1 := by
      have h3 := congrArg (fun c => c.b.length) h1
      simp only [hcb, List.length_take, List.length_cons] at h3
      have := decodeRune_width b0 (t ++ bytesOf seg ++ bytesOf post)
      omega
    have hd := decodeRune_take (b0 := b0) (t ++ bytesOf seg) (bytesOf post) (by
      rw [hw]; simp)
    have htl : decode (bytesOf (seg ++ post)) = seg ++ post := by
      conv => rhs; rw [← h2, hw]
      simp
    rw [hx2, decode_cons, hd, hw]
    have : (b0 :: (t ++ bytesOf seg)).drop (t.length + 1) = bytesOf seg := by simp
    rw [this, ih post htl]
    have h4 := congrArg Ch.r h1
    simp only at h4
    have : (b0 :: (t ++ bytesOf seg)).take (t.length + 1) = c.b := by simp [hcb]
    rw [h4, this]

theorem TokAt.decode {U x t s body} (h : TokAt U x t s body) : decode (bytesOf body) = body := by
  obtain ⟨pre, h1, _⟩ := h.start
  exact decode_prefix body s.rest (decode_suffix pre _ x h1)

/-! ## Byte-order marks -/

theorem decodeRune_bom {b0 : Nat} {t : List Nat} (h : (decodeRune b0 t).1 = 0xFEFF) :
    ∃ t', b0 = 0xEF ∧ t = 0xBB :: 0xBF :: t' ∧ (decodeRune b0 t).2 = 3 := by
  have aux : ∀ {p : Prop} [Decidable p] {a k n : Nat},
      (if p then (a, k) else (65533, n)).1 = 0xFEFF → p ∧ a = 0xFEFF := by
    intro p _ a k n h
    split at h <;> simp at h
    constructor <;> assumption
  revert h
  unfold decodeRune
  simp only [runeError]
  split
  · intro h; simp only at h; omega
  split
  · rename_i h1
    simp only [Bool.and_eq_true, decide_eq_true_eq] at h1
    split
    · intro h
      have ⟨h2, h3⟩ := aux h
      simp only [isCont, Bool.and_eq_true, decide_eq_true_eq] at h2
      omega
    · simp
  split
  · rename_i h1
    simp only [Bool.and_eq_true, decide_eq_true_eq] at h1
    split
    · rename_i b1 b2 t'
      intro h
      have ⟨h2, h3⟩ := aux h
      have h2' := h2
      simp only [isCont, Bool.and_eq_true, decide_eq_true_eq] at h2
      have : b0 = 0xEF ∧ b1 = 0xBB ∧ b2 = 0xBF := by
        split at h2 <;> split at h2 <;> omega
      obtain ⟨rfl, rfl, rfl⟩ := this
      exact ⟨t', rfl, rfl, rfl⟩
    · simp
  split
  · rename_i h1
    simp only [Bool.and_eq_true, decide_eq_true_eq] at h1
    split
    · intro h
      have ⟨h2, h3⟩ := aux h
      simp only [isCont, Bool.and_eq_true, decide_eq_true_eq] at h2
      split at h2 <;> omega
    · simp
  · simp

/-- A source that does not start with a byte-order mark is scanned from its first byte. -/
theorem SS.init_of_not_bom {x : GoString} (h : ¬ [0xEF, 0xBB, 0xBF] <+: x) :
    SS.init x = ⟨Verif.decode x, 0⟩ := by
  unfold SS.init
  split
  · rename_i c cs hd
    split
    · rename_i hr
      exfalso
      cases x with
      | nil => simp at hd
      | cons b0 t =>
        rw [decode_cons] at hd
        have h1 := congrArg Ch.r (List.cons.inj hd).1
        simp only [hr] at h1
        obtain ⟨t', rfl, rfl, _⟩ := decodeRune_bom h1
        exact h ⟨t', rfl⟩
    · rw [hd]
  · rename_i hd; rw [hd]

theorem SS.init_bom (x : GoString) : SS.init (0xEF :: 0xBB :: 0xBF :: x) = ⟨Verif.decode x, 3⟩ := by
  have h : decodeRune 0xEF (0xBB :: 0xBF :: x) = (0xFEFF, 3) := by
    simp [decodeRune, isCont]
  unfold SS.init
  rw [decode_cons, h]
  simp

end Verif
