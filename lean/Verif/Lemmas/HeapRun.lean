import Verif.Lemmas.Heap
/-! # Objects that are held: disjoint trees on the heap, and what the functions of tex/box.go do with them -/

namespace Verif
open GoFloat Spec
variable {F : Type}

/-- The trees are at the addresses; no object occurs twice in them; all have been made after the first `base` objects. -/
def Held (h : Heap F) (base : Nat) (l : List (Ref × TNode F)) : Prop :=
  base ≤ h.length ∧ ∃ S, AtAll h (l.map (·.1)) (l.map (·.2)) S ∧ S.Nodup ∧ ∀ x ∈ S, base ≤ x

/-- The first `base` objects are unchanged. -/
def Fr (base : Nat) (h h' : Heap F) : Prop := h.length ≤ h'.length ∧ ∀ x, x < base → h'[x]? = h[x]?

theorem Fr.rfl {base : Nat} {h : Heap F} : Fr base h h := ⟨Nat.le_refl _, fun _ _ => by rfl⟩
theorem Fr.trans {base : Nat} {h h1 h2 : Heap F} (a : Fr base h h1) (b : Fr base h1 h2) : Fr base h h2 :=
  ⟨Nat.le_trans a.1 b.1, fun x hx => (b.2 x hx).trans (a.2 x hx)⟩
theorem Fr.mono {base base' : Nat} {h h' : Heap F} (a : Fr base h h') (hb : base' ≤ base) : Fr base' h h' :=
  ⟨a.1, fun x hx => a.2 x (by omega)⟩

/-- Two lists have the same elements, by counting. -/
macro "perm_tac" : tactic => `(tactic| (classical
  rw [List.perm_iff_count]; intro a
  simp only [List.count_cons, List.count_append, List.cons_append, List.nil_append, List.count_nil]; omega))

/-! ## Lists of trees -/

theorem atAll_append (h : Heap F) (l1 l2 : List (Ref × TNode F)) (S : List Ref) :
    AtAll h ((l1 ++ l2).map (·.1)) ((l1 ++ l2).map (·.2)) S ↔
      ∃ S1 S2, S = S1 ++ S2 ∧ AtAll h (l1.map (·.1)) (l1.map (·.2)) S1 ∧ AtAll h (l2.map (·.1)) (l2.map (·.2)) S2 := by
  induction l1 generalizing S with
  | nil =>
    simp only [List.nil_append, List.map_nil, atAll_nil]
    constructor
    · intro ha; exact ⟨[], S, _root_.rfl, by simp, ha⟩
    · rintro ⟨S1, S2, e, ⟨_, rfl⟩, ha⟩; rw [e]; exact ha
  | cons q l1 ih =>
    simp only [List.cons_append, List.map_cons, atAll_cons, ih]
    constructor
    · rintro ⟨S1, S2, rfl, a, S3, S4, rfl, b, c⟩
      exact ⟨S1 ++ S3, S4, by simp, ⟨S1, S3, _root_.rfl, a, b⟩, c⟩
    · rintro ⟨S1, S2, rfl, ⟨S3, S4, rfl, a, b⟩, c⟩
      exact ⟨S3, S4 ++ S2, by simp, a, S4, S2, _root_.rfl, b, c⟩

theorem atAll_perm {h : Heap F} {l l' : List (Ref × TNode F)} (hp : l.Perm l') :
    ∀ {S : List Ref}, AtAll h (l.map (·.1)) (l.map (·.2)) S → ∃ S', S.Perm S' ∧ AtAll h (l'.map (·.1)) (l'.map (·.2)) S' := by
  induction hp with
  | nil => intro S ha; exact ⟨S, .refl _, ha⟩
  | cons q _ ih =>
    intro S ha
    simp only [List.map_cons, atAll_cons] at ha ⊢
    obtain ⟨S1, S2, rfl, a, b⟩ := ha
    obtain ⟨S2', p, c⟩ := ih b
    exact ⟨S1 ++ S2', p.append_left S1, S1, S2', _root_.rfl, a, c⟩
  | swap q q' l =>
    intro S ha
    simp only [List.map_cons, atAll_cons] at ha ⊢
    obtain ⟨S1, S2, rfl, a, S3, S4, rfl, b, c⟩ := ha
    refine ⟨S3 ++ (S1 ++ S4), ?_, S3, S1 ++ S4, _root_.rfl, b, S1, S4, _root_.rfl, a, c⟩
    rw [← List.append_assoc, ← List.append_assoc]
    exact List.perm_append_comm.append_right S4
  | trans _ _ ih1 ih2 =>
    intro S ha
    obtain ⟨S1, p1, a⟩ := ih1 ha
    obtain ⟨S2, p2, b⟩ := ih2 a
    exact ⟨S2, p1.trans p2, b⟩

theorem Held.perm {h : Heap F} {base : Nat} {l l' : List (Ref × TNode F)} (a : Held h base l) (hp : l.Perm l') : Held h base l' := by
  obtain ⟨hb, S, h1, h2, h3⟩ := a
  obtain ⟨S', p, h4⟩ := atAll_perm hp h1
  exact ⟨hb, S', h4, p.nodup_iff.1 h2, fun x hx => h3 x (p.mem_iff.2 hx)⟩

theorem Held.drop {h : Heap F} {base : Nat} {l1 l2 : List (Ref × TNode F)} (a : Held h base (l1 ++ l2)) : Held h base l2 := by
  obtain ⟨hb, S, h1, h2, h3⟩ := a
  rw [atAll_append] at h1
  obtain ⟨S1, S2, rfl, _, h5⟩ := h1
  exact ⟨hb, S2, h5, (List.nodup_append.1 h2).2.1, fun x hx => h3 x (by simp [hx])⟩

theorem held_nil (h : Heap F) : Held h h.length ([] : List (Ref × TNode F)) :=
  ⟨Nat.le_refl _, [], by simp [AtAll], by simp, by simp⟩

/-- New trees beside those that are there. -/
theorem Held.join {h h' : Heap F} {base : Nat} {l l' : List (Ref × TNode F)} (a : Held h base l) (hf : Fr h.length h h')
    (b : Held h' h.length l') : Held h' base (l' ++ l) := by
  obtain ⟨hb, S, h1, h2, h3⟩ := a
  obtain ⟨_, S', k1, k2, k3⟩ := b
  have h1' := h1.same (h' := h') fun x hx => hf.2 x (h1.lt x hx)
  refine ⟨Nat.le_trans hb hf.1, S' ++ S, (atAll_append _ _ _ _).2 ⟨S', S, _root_.rfl, k1, h1'⟩, ?_, ?_⟩
  · refine List.nodup_append.2 ⟨k2, h2, ?_⟩
    intro x hx y hy e
    subst e
    exact Nat.lt_irrefl _ (Nat.lt_of_lt_of_le (h1.lt x hy) (k3 x hx))
  · intro x hx
    rcases List.mem_append.1 hx with hx | hx
    · exact Nat.le_trans hb (k3 x hx)
    · exact h3 x hx

/-! ## Running -/

/-- `Q` of the results, or the same panic. -/
def RelRes {α β : Type} (Q : α → β → Prop) : Res α → Res β → Prop
  | .ok a, .ok b => Q a b
  | .panic p, .panic q => p = q
  | .fuel, .fuel => True
  | _, _ => False

theorem RelRes.bind {α β γ δ : Type} {Q : α → β → Prop} {R : γ → δ → Prop} {x : Res α} {y : Res β} {f : α → Res γ} {g : β → Res δ}
    (h : RelRes Q x y) (k : ∀ a b, Q a b → RelRes R (f a) (g b)) : RelRes R (x >>= f) (y >>= g) := by
  cases x <;> cases y <;> simp_all [RelRes]

theorem RelRes.imp {α β : Type} {Q R : α → β → Prop} {x : Res α} {y : Res β} (h : RelRes Q x y) (k : ∀ a b, Q a b → R a b) :
    RelRes R x y := by
  cases x <;> cases y <;> simp_all [RelRes]

/-- `m` run on `h` does what `p` does, leaves the first `base` objects as they are, and `Q` holds afterwards. -/
def Run {α β : Type} (m : HM F α) (h : Heap F) (base : Nat) (p : Res β) (Q : Heap F → α → β → Prop) : Prop :=
  RelRes (fun q b => Fr base h q.2 ∧ Q q.2 q.1 b) (m h) p

theorem Run.bind {α β γ δ : Type} {m : HM F α} {h : Heap F} {base : Nat} {p : Res β} {Q : Heap F → α → β → Prop} {f : α → HM F γ}
    {g : β → Res δ} {R : Heap F → γ → δ → Prop} (a : Run m h base p Q)
    (k : ∀ a h' b, Fr base h h' → Q h' a b → Run (f a) h' base (g b) R) : Run (m.bind f) h base (p >>= g) R := by
  unfold Run HM.bind
  refine RelRes.bind a fun q b hq => ?_
  exact (k q.1 q.2 b hq.1 hq.2).imp fun q' b' hr => ⟨hq.1.trans hr.1, hr.2⟩

/-- A computation that returns. -/
def Does {α : Type} (m : HM F α) (h : Heap F) (base : Nat) (Q : Heap F → α → Prop) : Prop :=
  ∃ a h', m h = .ok (a, h') ∧ Fr base h h' ∧ Q h' a

theorem Does.bind {α γ δ : Type} {m : HM F α} {h : Heap F} {base : Nat} {Q : Heap F → α → Prop} {f : α → HM F γ}
    {p : Res δ} {R : Heap F → γ → δ → Prop} (a : Does m h base Q) (k : ∀ a h', Fr base h h' → Q h' a → Run (f a) h' base p R) :
    Run (m.bind f) h base p R := by
  obtain ⟨a, h', e, hf, hq⟩ := a
  unfold Run HM.bind
  rw [e, Res.ok_bind]
  exact (k a h' hf hq).imp fun q' b' hr => ⟨hf.trans hr.1, hr.2⟩

theorem Does.seq {α γ : Type} {m : HM F α} {h : Heap F} {base : Nat} {Q : Heap F → α → Prop} {f : α → HM F γ}
    {R : Heap F → γ → Prop} (a : Does m h base Q) (k : ∀ a h', Fr base h h' → Q h' a → Does (f a) h' base R) :
    Does (m.bind f) h base R := by
  obtain ⟨a, h', e, hf, hq⟩ := a
  obtain ⟨b, h2, e2, hf2, hr⟩ := k a h' hf hq
  exact ⟨b, h2, by unfold HM.bind; rw [e, Res.ok_bind]; exact e2, hf.trans hf2, hr⟩

theorem Does.run {α β : Type} {m : HM F α} {h : Heap F} {base : Nat} {Q : Heap F → α → Prop} {b : β} {R : Heap F → α → β → Prop}
    (a : Does m h base Q) (k : ∀ a h', Q h' a → R h' a b) : Run m h base (.ok b) R := by
  obtain ⟨a, h', e, hf, hq⟩ := a
  unfold Run
  rw [e]
  exact ⟨hf, k a h' hq⟩

theorem does_ret {α : Type} {a : α} {h : Heap F} {base : Nat} {Q : Heap F → α → Prop} (hq : Q h a) : Does (HM.ret a) h base Q :=
  ⟨a, h, rfl, .rfl, hq⟩

theorem run_ret {α β : Type} {a : α} {b : β} {h : Heap F} {base : Nat} {Q : Heap F → α → β → Prop} (hq : Q h a b) :
    Run (HM.ret a) h base (.ok b) Q := ⟨.rfl, hq⟩

theorem run_lift {α : Type} {x : Res α} {h : Heap F} {base : Nat} : Run (HM.lift x) h base x (fun h' a b => h' = h ∧ a = b) := by
  unfold Run HM.lift
  cases x with
  | ok a => exact ⟨.rfl, rfl, rfl⟩
  | panic p => rfl
  | fuel => exact trivial

theorem run_panic {α β : Type} {p : Panic} {h : Heap F} {base : Nat} {Q : Heap F → α → β → Prop} :
    Run (HM.lift (.panic p)) h base (.panic p) Q := rfl

theorem Run.imp {α β : Type} {m : HM F α} {h : Heap F} {base : Nat} {p : Res β} {Q R : Heap F → α → β → Prop} (a : Run m h base p Q)
    (k : ∀ h' a b, Q h' a b → R h' a b) : Run m h base p R := RelRes.imp a fun q b hq => ⟨hq.1, k _ _ _ hq.2⟩

/-- What a function that makes new trees does: on every heap. -/
def Makes (m : HM F Ref) (p : Res (TNode F)) : Prop :=
  ∀ h, Run m h h.length p (fun h' r t => Held h' h.length [(r, t)])

/-- The same with other trees held. -/
theorem Makes.call {m : HM F Ref} {p : Res (TNode F)} (hm : Makes m p) {h : Heap F} {base : Nat} {l : List (Ref × TNode F)}
    (hl : Held h base l) : Run m h base p (fun h' r t => Held h' base ((r, t) :: l)) :=
  RelRes.imp (hm h) fun _ _ hq => ⟨hq.1.mono hl.1, hl.join hq.1 hq.2⟩

end Verif
