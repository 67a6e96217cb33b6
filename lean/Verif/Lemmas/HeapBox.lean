import Verif.Lemmas.HeapRun
/-! # The functions of tex/box.go on objects -/

namespace Verif
open GoFloat Spec
variable {F : Type}

theorem fr_alloc (base : Nat) (h : Heap F) (c : Cell F) (hb : base ≤ h.length) : Fr base h (h ++ [c]) :=
  ⟨by simp, fun x hx => by rw [List.getElem?_append_left (by omega)]⟩

theorem does_leaf {h : Heap F} {base : Nat} {l : List (Ref × TNode F)} (hl : Held h base l) (t : TNode F) (hk : t.kids = [])
    (hr : (t.cell []).refs = []) : Does (hAlloc (t.cell [])) h base (fun h' r => Held h' base ((r, t) :: l)) := by
  refine ⟨h.length, h ++ [t.cell []], rfl, fr_alloc _ _ _ hl.1, ?_⟩
  refine hl.join (fr_alloc _ _ _ (Nat.le_refl _)) (l' := [(h.length, t)]) ⟨by simp, [h.length], ?_, by simp, by simp⟩
  simp only [List.map_cons, List.map_nil, atAll_cons]
  refine ⟨[h.length], [], by simp, ?_, by simp [AtAll]⟩
  rw [at_iff]
  exact ⟨[], [], by simp, hr, rfl, by simp [hk, AtAll]⟩

theorem does_list {h : Heap F} {base : Nat} {l1 l2 : List (Ref × TNode F)} (hl : Held h base (l1 ++ l2)) (k : LKind) (hd : LHead F) :
    Does (hAlloc (.list k hd (l1.map (·.1)))) h base (fun h' r => Held h' base ((r, .list k hd (l1.map (·.2))) :: l2)) := by
  refine ⟨h.length, h ++ [.list k hd (l1.map (·.1))], rfl, fr_alloc _ _ _ hl.1, ?_⟩
  obtain ⟨hb, S, h1, h2, h3⟩ := hl
  have hx : ∀ x ∈ S, x ≠ h.length := fun x hx => Nat.ne_of_lt (h1.lt x hx)
  have h4 := h1.same (h' := h ++ [.list k hd (l1.map (·.1))]) fun x hx => by
    rw [List.getElem?_append_left (h1.lt x hx)]
  rw [atAll_append] at h4
  obtain ⟨S1, S2, rfl, h5, h6⟩ := h4
  refine ⟨by simp; omega, h.length :: S1 ++ S2, ?_, ?_, ?_⟩
  · simp only [List.map_cons, atAll_cons]
    refine ⟨h.length :: S1, S2, rfl, ?_, h6⟩
    rw [at_iff]
    exact ⟨l1.map (·.1), S1, by simp [TNode.cell], rfl, rfl, h5⟩
  · rw [List.cons_append, List.nodup_cons]
    exact ⟨fun hm => hx _ hm rfl, h2⟩
  · intro x hx
    rw [List.cons_append] at hx
    rcases List.mem_cons.1 hx with rfl | hx
    · exact hb
    · exact h3 x hx

/-- The first tree held. -/
theorem Held.head {h : Heap F} {base : Nat} {r : Ref} {t : TNode F} {l : List (Ref × TNode F)} (hl : Held h base ((r, t) :: l)) :
    ∃ S1 S2, At h r t S1 ∧ AtAll h (l.map (·.1)) (l.map (·.2)) S2 ∧ S1.Nodup ∧ S2.Nodup ∧ (∀ x ∈ S1, x ∉ S2) ∧
      (∀ x ∈ S1, base ≤ x) ∧ (∀ x ∈ S2, base ≤ x) := by
  obtain ⟨hb, S, h1, h2, h3⟩ := hl
  simp only [List.map_cons, atAll_cons] at h1
  obtain ⟨S1, S2, rfl, a, b⟩ := h1
  have := List.nodup_append.1 h2
  exact ⟨S1, S2, a, b, this.1, this.2.1, fun x hx hy => this.2.2 x hx x hy rfl, fun x hx => h3 x (by simp [hx]),
    fun x hx => h3 x (by simp [hx])⟩

/-- The first tree changes and keeps its objects; nothing else changes. -/
theorem Held.change {h h' : Heap F} {base : Nat} {r : Ref} {t' : TNode F} {l : List (Ref × TNode F)} {S1 S2 : List Ref}
    (hb : base ≤ h.length) (h2 : AtAll h (l.map (·.1)) (l.map (·.2)) S2) (h3 : S1.Nodup) (h4 : S2.Nodup)
    (h5 : ∀ x ∈ S1, x ∉ S2) (h6 : ∀ x ∈ S1, base ≤ x) (h7 : ∀ x ∈ S2, base ≤ x) (a : At h' r t' S1) (hlen : h'.length = h.length)
    (ho : ∀ x, x ∉ S1 → h'[x]? = h[x]?) : Held h' base ((r, t') :: l) ∧ Fr base h h' := by
  refine ⟨⟨by rw [hlen]; exact hb, S1 ++ S2, ?_, ?_, ?_⟩, by rw [hlen], fun x hx => ho x fun hm => ?_⟩
  · simp only [List.map_cons, atAll_cons]
    exact ⟨S1, S2, rfl, a, h2.same fun x hx => ho x fun hm => h5 x hm hx⟩
  · refine List.nodup_append.2 ⟨h3, h4, fun x hx y hy e => ?_⟩
    subst e
    exact h5 x hx hy
  · intro x hx
    rcases List.mem_append.1 hx with hx | hx
    · exact h6 x hx
    · exact h7 x hx
  · have := h6 x hm
    omega

/-- A node without its children. -/
def TNode.shell (t : TNode F) : TNode F := (t.cell []).shell

theorem cell_shell (t : TNode F) (rs : List Ref) : (t.cell rs).shell = t.shell := by cases t <;> rfl

theorem does_get {h : Heap F} {base : Nat} {r : Ref} {t : TNode F} {l : List (Ref × TNode F)} (hl : Held h base ((r, t) :: l)) :
    Does (hGet r) h base (fun h' c => h' = h ∧ ∃ rs, c = t.cell rs) := by
  obtain ⟨S1, S2, a, _⟩ := hl.head
  rw [at_iff] at a
  obtain ⟨rs, S', e, _⟩ := a
  exact ⟨_, h, by rw [hGet, e], .rfl, rfl, rs, rfl⟩

theorem does_shells {h : Heap F} {base : Nat} {l l2 : List (Ref × TNode F)} (hl : Held h base (l ++ l2)) :
    Does (hShells (l.map (·.1))) h base (fun h' ts => h' = h ∧ ts = l.map (·.2.shell)) := by
  induction l with
  | nil => exact does_ret ⟨rfl, rfl⟩
  | cons q l ih =>
    refine (does_get (r := q.1) (t := q.2) hl).seq fun c h' _ hc => ?_
    obtain ⟨rfl, rs, rfl⟩ := hc
    refine (ih (hl.drop (l1 := [q]))).seq fun ts h' _ hc => ?_
    obtain ⟨rfl, rfl⟩ := hc
    exact does_ret ⟨rfl, by simp [cell_shell]⟩

section
variable [GoFloat F]

theorem does_shrink (be : Backend F) {h : Heap F} {base : Nat} {r : Ref} {t : TNode F} {l : List (Ref × TNode F)}
    (hl : Held h base ((r, t) :: l)) : Does (hShrink be r) h base (fun h' _ => Held h' base ((r, t.shrink be) :: l)) := by
  obtain ⟨S1, S2, a, b, c, d, e, f, g⟩ := hl.head
  obtain ⟨h', k1, k2, k3, k4⟩ := hShrink_at be a c
  have := Held.change hl.1 b c d e f g k2 k3 k4
  exact ⟨(), h', k1, this.2, this.1⟩

theorem does_grow (be : Backend F) {h : Heap F} {base : Nat} {r : Ref} {t : TNode F} {l : List (Ref × TNode F)}
    (hl : Held h base ((r, t) :: l)) : Does (hGrow be r) h base (fun h' _ => Held h' base ((r, t.grow be) :: l)) := by
  obtain ⟨S1, S2, a, b, c, d, e, f, g⟩ := hl.head
  obtain ⟨h', k1, k2, k3, k4⟩ := hGrow_at be a c
  have := Held.change hl.1 b c d e f g k2 k3 k4
  exact ⟨(), h', k1, this.2, this.1⟩

/-- Addresses and trees in step. -/
theorem atAll_zip {h : Heap F} : ∀ {rs : List Ref} {ts : List (TNode F)} {S : List Ref}, AtAll h rs ts S →
    ∃ l1 : List (Ref × TNode F), rs = l1.map (·.1) ∧ ts = l1.map (·.2) := by
  intro rs
  induction rs with
  | nil =>
    intro ts S h1
    rw [atAll_nil] at h1
    exact ⟨[], rfl, h1.1⟩
  | cons r rs ih =>
    intro ts S h1
    cases ts with
    | nil => simp [AtAll] at h1
    | cons t ts =>
      rw [atAll_cons] at h1
      obtain ⟨S1, S2, _, _, h2⟩ := h1
      obtain ⟨l1, e1, e2⟩ := ih h2
      exact ⟨(r, t) :: l1, by simp [e1], by simp [e2]⟩

/-- The header of the first list is written. -/
theorem held_set {h : Heap F} {base : Nat} {r : Ref} {k : LKind} {hd : LHead F} {ts : List (TNode F)} {l : List (Ref × TNode F)}
    (hl : Held h base ((r, .list k hd ts) :: l)) : ∃ rs : List Ref, h[r]? = some (.list k hd rs) ∧
      (∃ l1 : List (Ref × TNode F), rs = l1.map (·.1) ∧ ts = l1.map (·.2) ∧ Held h base (l1 ++ l)) ∧
      ∀ hd', Held (h.set r (.list k hd' rs)) base ((r, .list k hd' ts) :: l) ∧ Fr base h (h.set r (.list k hd' rs)) := by
  obtain ⟨S1, S2, a, b, c, d, e, f, g⟩ := hl.head
  simp only [At] at a
  obtain ⟨rs, S', k1, rfl, k2⟩ := a
  refine ⟨rs, k1, ?_, fun hd' => ?_⟩
  · obtain ⟨l1, rfl, rfl⟩ := atAll_zip k2
    refine ⟨l1, rfl, rfl, hl.1, S' ++ S2, ?_, ?_, ?_⟩
    · rw [atAll_append]
      exact ⟨S', S2, rfl, k2, b⟩
    · refine List.nodup_append.2 ⟨(List.nodup_cons.1 c).2, d, fun x hx y hy e' => ?_⟩
      subst e'
      exact e x (by simp [hx]) hy
    · intro x hx
      rcases List.mem_append.1 hx with hx | hx
      · exact f x (by simp [hx])
      · exact g x hx
  · have hr := (List.nodup_cons.1 c).1
    have hlt := (List.getElem?_eq_some_iff.1 k1).1
    refine Held.change hl.1 b c d e f g ?_ (by simp) ?_
    · simp only [At]
      refine ⟨rs, S', by rw [List.getElem?_set_self hlt], rfl, k2.same fun x hx => ?_⟩
      rw [List.getElem?_set_ne]
      rintro rfl
      exact hr hx
    · intro x hx
      rw [List.getElem?_set_ne]
      rintro rfl
      exact hx (by simp)

theorem does_setShift {h : Heap F} {base : Nat} {r : Ref} {k : LKind} {hd : LHead F} {ts : List (TNode F)} {l : List (Ref × TNode F)}
    (hl : Held h base ((r, .list k hd ts) :: l)) (s : F) :
    Does (hSetShift r s) h base (fun h' _ => Held h' base ((r, .list k (hd.setShift s) ts) :: l)) := by
  obtain ⟨rs, a, _, b⟩ := held_set hl
  obtain ⟨c, d⟩ := b (hd.setShift s)
  refine ⟨(), _, ?_, d, c⟩
  unfold hSetShift HM.bind hGet
  rw [a]
  rfl

theorem hpackDims_shell (t : TNode F) (p : Dims F) : hpackDims t.shell p = hpackDims t p := by cases t <;> rfl
theorem vpackDims_shell (t : TNode F) (p : Dims F) : vpackDims t.shell p = vpackDims t p := by cases t <;> rfl
theorem width_shell (t : TNode F) : t.shell.width = t.width := by cases t <;> rfl
theorem height_shell (t : TNode F) : t.shell.height = t.height := by cases t <;> rfl
theorem depth_shell (t : TNode F) : t.shell.depth = t.depth := by cases t <;> rfl
theorem kerning_shell (be : Backend F) (t : TNode F) (n : Option (TNode F)) :
    t.shell.kerning be (n.map TNode.shell) = t.kerning be n := by
  rcases n with _ | n
  · cases t <;> rfl
  · cases t <;> cases n <;> rfl

theorem hpack_shells (hd : LHead F) (ts : List (TNode F)) (w : F) (a : Bool) : hpack hd (ts.map TNode.shell) w a = hpack hd ts w a := by
  unfold hpack
  have : ∀ p : Dims F, (ts.map TNode.shell).foldl (fun p n => hpackDims n p) p = ts.foldl (fun p n => hpackDims n p) p := by
    intro p
    rw [List.foldl_map]
    simp only [hpackDims_shell]
  simp only [this]

theorem vpackAll_shells (ts : List (TNode F)) (p : Dims F) : vpackAll (ts.map TNode.shell) p = vpackAll ts p := by
  induction ts generalizing p with
  | nil => rfl
  | cons t ts ih => simp only [List.map_cons, vpackAll, vpackDims_shell, ih]

theorem vpack_shells (hd : LHead F) (ts : List (TNode F)) (w : F) (a : Bool) (lim : F) :
    vpack hd (ts.map TNode.shell) w a lim = vpack hd ts w a lim := by
  unfold vpack
  rw [vpackAll_shells]

theorem does_hpack {h : Heap F} {base : Nat} {r : Ref} {k : LKind} {hd : LHead F} {ts : List (TNode F)} {l : List (Ref × TNode F)}
    (hl : Held h base ((r, .list k hd ts) :: l)) (w : F) (a : Bool) :
    Does (hHPack r w a) h base (fun h' _ => Held h' base ((r, .list k (hpack hd ts w a) ts) :: l)) := by
  obtain ⟨rs, e, ⟨l1, rfl, rfl, hh⟩, b⟩ := held_set hl
  obtain ⟨c, d⟩ := b (hpack hd (l1.map (·.2)) w a)
  refine ⟨(), _, ?_, d, c⟩
  obtain ⟨_, _, e2, _, rfl, rfl⟩ := does_shells hh
  unfold hHPack HM.bind hGet
  rw [e]
  simp only [Res.ok_bind, e2]
  have : l1.map (fun q => q.2.shell) = (l1.map (·.2)).map TNode.shell := by simp
  rw [this, hpack_shells]
  rfl

theorem run_vpack {h : Heap F} {base : Nat} {r : Ref} {k : LKind} {hd : LHead F} {ts : List (TNode F)} {l : List (Ref × TNode F)}
    (hl : Held h base ((r, .list k hd ts) :: l)) (w : F) (a : Bool) (lim : F) :
    Run (hVPack r w a lim) h base (vpack hd ts w a lim) (fun h' _ hd' => Held h' base ((r, .list k hd' ts) :: l)) := by
  obtain ⟨rs, e, ⟨l1, rfl, rfl, hh⟩, b⟩ := held_set hl
  obtain ⟨_, _, e2, _, rfl, rfl⟩ := does_shells hh
  unfold Run hVPack HM.bind hGet HM.lift
  rw [e]
  simp only [Res.ok_bind, e2]
  have : l1.map (fun q => q.2.shell) = (l1.map (·.2)).map TNode.shell := by simp
  rw [this, vpack_shells]
  cases hv : vpack hd (l1.map (·.2)) w a lim with
  | ok hd' =>
    obtain ⟨c, d⟩ := b hd'
    exact ⟨d, c⟩
  | panic p => exact rfl
  | fuel => exact trivial

theorem does_kern (be : Backend F) {h : Heap F} {base : Nat} (l : List (Ref × TNode F)) : ∀ {h : Heap F} {l2 : List (Ref × TNode F)},
    Held h base (l ++ l2) → Does (hKern be (l.map (·.1))) h base (fun h' rs => ∃ l' : List (Ref × TNode F),
      rs = l'.map (·.1) ∧ l'.map (·.2) = insertKerns be (l.map (·.2)) ∧ Held h' base (l' ++ l2)) := by
  induction l with
  | nil => intro h l2 hl; exact does_ret ⟨[], rfl, rfl, hl⟩
  | cons q l ih =>
    intro h l2 hl
    simp only [List.map_cons, hKern]
    refine (does_get (r := q.1) (t := q.2) hl).seq fun c h' _ hc => ?_
    obtain ⟨rfl, rs, rfl⟩ := hc
    have e1 : (l.map (·.1)).head?.toList = (l.head?.toList).map (·.1) := by cases l <;> rfl
    rw [e1]
    have hl' : Held h' base (l.head?.toList ++ (l.tail ++ l2)) := by
      have := hl.drop (l1 := [q]) (l2 := l ++ l2)
      cases l with
      | nil => exact this
      | cons a l => exact this
    refine (does_shells hl').seq fun ts h'' _ hc => ?_
    obtain ⟨rfl, rfl⟩ := hc
    have e2 : (l.head?.toList.map fun x => x.2.shell).head? = ((l.map (·.2)).head?).map TNode.shell := by cases l <;> rfl
    rw [e2, cell_shell, kerning_shell]
    simp only [insertKerns]
    split
    · next hd =>
      refine (does_leaf hl (.kern ⟨0, q.2.kerning be (l.map (·.2)).head?⟩) rfl rfl).seq fun k h1 _ hk => ?_
      have p1 : ((k, TNode.kern ⟨0, q.2.kerning be (l.map (·.2)).head?⟩) :: (q :: l ++ l2)).Perm
          (l ++ (q :: (k, TNode.kern ⟨0, q.2.kerning be (l.map (·.2)).head?⟩) :: l2)) := by
        perm_tac
      refine (ih (hk.perm p1)).seq fun rs' h2 _ hr => ?_
      obtain ⟨l', rfl, e3, h4⟩ := hr
      refine does_ret ⟨q :: (k, TNode.kern ⟨0, q.2.kerning be (l.map (·.2)).head?⟩) :: l', by simp, by simp [e3, newKern], h4.perm ?_⟩
      perm_tac
    · next hd =>
      have p1 : (q :: l ++ l2).Perm (l ++ (q :: l2)) := List.perm_middle.symm
      refine (ih (hl.perm p1)).seq fun rs' h2 _ hr => ?_
      obtain ⟨l', rfl, e3, h4⟩ := hr
      exact does_ret ⟨q :: l', by simp, by simp [e3], h4.perm List.perm_middle⟩

theorem does_hlistOf (be : Backend F) {h : Heap F} {base : Nat} {l l2 : List (Ref × TNode F)} (hl : Held h base (l ++ l2)) (dk : Bool) :
    Does (hHListOf be (l.map (·.1)) dk) h base (fun h' r => Held h' base ((r, hlistOf be (l.map (·.2)) dk) :: l2)) := by
  have h1 : Does (if dk then hKern be (l.map (·.1)) else .ret (l.map (·.1))) h base (fun h' rs => ∃ l' : List (Ref × TNode F),
      rs = l'.map (·.1) ∧ l'.map (·.2) = (if dk then insertKerns be (l.map (·.2)) else l.map (·.2)) ∧ Held h' base (l' ++ l2)) := by
    cases dk with
    | true => exact does_kern be (h := h) l hl
    | false => exact does_ret ⟨l, rfl, rfl, hl⟩
  refine h1.seq fun rs h' _ hr => ?_
  obtain ⟨l', rfl, e, hl'⟩ := hr
  refine (does_list hl' .h LHead.zero).seq fun r h2 _ hr => ?_
  refine (does_hpack hr zero true).seq fun _ h3 _ h4 => ?_
  refine does_ret ?_
  rw [e] at h4
  exact h4

theorem run_vlistOf {h : Heap F} {base : Nat} {l l2 : List (Ref × TNode F)} (hl : Held h base (l ++ l2)) :
    Run (hVListOf (l.map (·.1))) h base (vlistOf (l.map (·.2))) (fun h' r t => Held h' base ((r, t) :: l2)) := by
  refine (does_list hl .v LHead.zero).bind fun r h2 _ hr => ?_
  exact (run_vpack hr zero true inf).bind fun _ h3 hd _ h4 => run_ret h4

theorem run_vlistOf_head {h : Heap F} {base : Nat} {l l2 : List (Ref × TNode F)} (hl : Held h base (l ++ l2)) :
    Run (hVListOf (l.map (·.1))) h base (vpack LHead.zero (l.map (·.2)) zero true inf)
      (fun h' r hd => Held h' base ((r, .list .v hd (l.map (·.2))) :: l2)) := by
  refine (does_list hl .v LHead.zero).bind fun r h2 _ hr => ?_
  have := (run_vpack hr zero true inf).bind (f := fun _ => HM.ret r) (g := fun hd => .ok hd)
    (R := fun h' r hd => Held h' base ((r, .list .v hd (l.map (·.2))) :: l2)) fun _ h3 hd _ h4 => run_ret h4
  have e : (vpack LHead.zero (l.map (·.2)) zero true inf >>= fun hd => .ok hd) = vpack LHead.zero (l.map (·.2)) zero true inf := by
    cases vpack LHead.zero (l.map (·.2)) zero true inf <;> rfl
  rw [e] at this
  exact this

theorem does_hcentered (be : Backend F) {h : Heap F} {base : Nat} {l l2 : List (Ref × TNode F)} (hl : Held h base (l ++ l2)) :
    Does (hHCentered be (l.map (·.1))) h base (fun h' r => Held h' base ((r, hcentered be (l.map (·.2))) :: l2)) := by
  refine (does_leaf hl (.glue ssGlue) rfl rfl).seq fun g1 h1 _ k1 => ?_
  refine (does_leaf k1 (.glue ssGlue) rfl rfl).seq fun g2 h2 _ k2 => ?_
  have := does_hlistOf be (l := (g1, .glue ssGlue) :: l ++ [(g2, .glue ssGlue)]) (l2 := l2) (k2.perm (by
    perm_tac)) false
  simpa [hcentered] using this

theorem run_vcentered {h : Heap F} {base : Nat} {l l2 : List (Ref × TNode F)} (hl : Held h base (l ++ l2)) :
    Run (hVCentered (l.map (·.1))) h base (vcentered (l.map (·.2))) (fun h' r t => Held h' base ((r, t) :: l2)) := by
  refine (does_leaf hl (.glue ssGlue) rfl rfl).bind fun g1 h1 _ k1 => ?_
  refine (does_leaf k1 (.glue ssGlue) rfl rfl).bind fun g2 h2 _ k2 => ?_
  have := run_vlistOf (l := (g1, .glue ssGlue) :: l ++ [(g2, .glue ssGlue)]) (l2 := l2) (k2.perm (by
    perm_tac))
  simpa [vcentered] using this

theorem run_newChar (be : Backend F) (c : GoString) (st : TState F) (math : Bool) {h : Heap F} {base : Nat} {l : List (Ref × TNode F)}
    (hl : Held h base l) : Run (hNewChar be c st math) h base (newChar be c st math) (fun h' r ch => Held h' base ((r, .char ch) :: l)) := by
  have := (run_lift (x := newChar be c st math) (h := h) (base := base)).bind (f := fun ch => hAlloc (.char ch)) (g := fun c => .ok c)
    (R := fun h' r ch => Held h' base ((r, .char ch) :: l)) fun ch h' b _ hc => by
      obtain ⟨rfl, rfl⟩ := hc
      exact (does_leaf hl (.char ch) rfl rfl).run fun _ _ hq => hq
  have e : (newChar be c st math >>= fun c => .ok c) = newChar be c st math := by cases newChar be c st math <;> rfl
  rw [e] at this
  exact this

theorem run_newGlue (typ : GoString) {h : Heap F} {base : Nat} {l : List (Ref × TNode F)} (hl : Held h base l) :
    Run (hNewGlue typ) h base (newGlue typ) (fun h' r g => Held h' base ((r, .glue g) :: l)) := by
  have := (run_lift (x := newGlue (F := F) typ) (h := h) (base := base)).bind (f := fun g => hAlloc (.glue g)) (g := fun c => .ok c)
    (R := fun h' r g => Held h' base ((r, .glue g) :: l)) fun ch h' b _ hc => by
      obtain ⟨rfl, rfl⟩ := hc
      exact (does_leaf hl (.glue ch) rfl rfl).run fun _ _ hq => hq
  have e : (newGlue (F := F) typ >>= fun c => .ok c) = newGlue typ := by cases newGlue (F := F) typ <;> rfl
  rw [e] at this
  exact this

theorem does_hbox {h : Heap F} {base : Nat} {l : List (Ref × TNode F)} (hl : Held h base l) (w : F) :
    Does (hHBox w) h base (fun h' r => Held h' base ((r, hbox w) :: l)) := does_leaf hl (hbox w) rfl rfl
theorem does_vbox {h : Heap F} {base : Nat} {l : List (Ref × TNode F)} (hl : Held h base l) (a b : F) :
    Does (hVBox a b) h base (fun h' r => Held h' base ((r, vbox a b) :: l)) := does_leaf hl (vbox a b) rfl rfl
theorem does_newKern {h : Heap F} {base : Nat} {l : List (Ref × TNode F)} (hl : Held h base l) (w : F) :
    Does (hNewKern w) h base (fun h' r => Held h' base ((r, newKern w) :: l)) := does_leaf hl (newKern w) rfl rfl
theorem does_hrule (be : Backend F) {h : Heap F} {base : Nat} {l : List (Ref × TNode F)} (hl : Held h base l) (st : TState F) (w : F) :
    Does (hHRule be st w) h base (fun h' r => Held h' base ((r, hrule be st w) :: l)) := does_leaf hl (hrule be st w) rfl rfl

theorem run_autoHeightChar (be : Backend F) (c : GoString) (height depth : F) (st : TState F) (factor : F) {h : Heap F} {base : Nat}
    {l : List (Ref × TNode F)} (hl : Held h base l) : Run (hAutoHeightChar be c height depth st factor) h base
      (autoHeightChar be c height depth st factor) (fun h' r t => Held h' base ((r, t) :: l)) := by
  unfold hAutoHeightChar autoHeightChar
  cases be.xheight st.font st.dpi with
  | none => exact run_panic
  | some v =>
    dsimp only
    unfold autoHeightBody
    refine (run_newChar be c st true hl).bind fun ch h1 d _ k1 => ?_
    dsimp only
    split
    · refine (does_get k1).bind fun cc h2 _ hc => ?_
      obtain ⟨rfl, rs, rfl⟩ := hc
      have e1 : ((TNode.char d).cell rs).shell.height = d.height := rfl
      have e2 : ((TNode.char d).cell rs).shell.depth = d.depth := rfl
      rw [e1, e2]
      refine (run_newChar be c _ true (k1.drop (l1 := [_]))).bind fun ch' h3 d' _ k3 => ?_
      refine (does_get k3).bind fun cc' h4 _ hc => ?_
      obtain ⟨rfl, rs', rfl⟩ := hc
      refine (does_hlistOf be (l := [(ch', .char d')]) (l2 := l) k3 true).bind fun r h5 _ k5 => ?_
      refine (does_setShift k5 _).bind fun _ h6 _ k6 => ?_
      exact run_ret k6
    · refine (does_hlistOf be (l := [(ch, .char d)]) (l2 := l) k1 true).bind fun r h5 _ k5 => ?_
      refine (does_setShift k5 _).bind fun _ h6 _ k6 => ?_
      exact run_ret k6
/-! ### New lists leave what is there as it is -/

theorem hShells_heap (rs : List Ref) (h : Heap F) (ts : List (TNode F)) (h' : Heap F) (e : hShells rs h = .ok (ts, h')) : h' = h := by
  induction rs generalizing ts h' with
  | nil => cases e; rfl
  | cons r rs ih =>
    unfold hShells HM.bind hGet at e
    cases hr : h[r]? with
    | none => rw [hr] at e; cases e
    | some c =>
      rw [hr] at e
      simp only [Res.ok_bind] at e
      rw [Res.bind_eq_ok] at e
      obtain ⟨⟨a, b⟩, e1, e2⟩ := e
      cases e2
      exact ih a b e1

theorem hKern_frame (be : Backend F) (rs : List Ref) (h : Heap F) (l : List Ref) (h' : Heap F) (e : hKern be rs h = .ok (l, h')) :
    Fr h.length h h' := by
  induction rs generalizing h l h' with
  | nil => cases e; exact .rfl
  | cons r rs ih =>
    simp only [hKern, HM.bind] at e
    rw [Res.bind_eq_ok] at e
    obtain ⟨⟨c, h1⟩, e1, e⟩ := e
    unfold hGet at e1
    split at e1
    · cases e1
      rw [Res.bind_eq_ok] at e
      obtain ⟨⟨nx, h2⟩, e2, e⟩ := e
      cases hShells_heap _ _ _ _ e2
      dsimp only at e
      split at e
      · simp only [hAlloc, HM.bind, Res.ok_bind] at e
        rw [Res.bind_eq_ok] at e
        obtain ⟨⟨l', h3⟩, e3, e⟩ := e
        cases e
        have := ih _ _ _ e3
        exact (fr_alloc _ _ _ (Nat.le_refl _)).trans (this.mono (by simp))
      · simp only [HM.bind, Res.bind_eq_ok] at e
        obtain ⟨⟨l', h3⟩, e3, e⟩ := e
        cases e
        exact ih _ _ _ e3
    · cases e1

theorem fr_set {h : Heap F} {n : Nat} (hn : n ≤ h.length) {c : Cell F} {r : Ref} (hr : n ≤ r) : Fr n h (h.set r c) :=
  ⟨by simp, fun x hx => by
    rw [List.getElem?_set_ne]
    have : x < r := Nat.lt_of_lt_of_le hx hr
    exact Nat.ne_of_gt this⟩

theorem hHPack_frame {h h' : Heap F} {n : Nat} {r : Ref} {w : F} {a : Bool} (hn : n ≤ h.length) (hr : n ≤ r)
    (e : hHPack r w a h = .ok ((), h')) : Fr n h h' := by
  unfold hHPack HM.bind hGet at e
  split at e
  · simp only [Res.ok_bind] at e
    split at e
    · rw [Res.bind_eq_ok] at e
      obtain ⟨⟨nx, h2⟩, e2, e⟩ := e
      cases hShells_heap _ _ _ _ e2
      cases e
      exact fr_set hn hr
    · cases e
  · cases e

theorem hVPack_frame {h h' : Heap F} {n : Nat} {r : Ref} {w : F} {a : Bool} {lim : F} (hn : n ≤ h.length) (hr : n ≤ r)
    (e : hVPack r w a lim h = .ok ((), h')) : Fr n h h' := by
  unfold hVPack HM.bind hGet at e
  split at e
  · simp only [Res.ok_bind] at e
    split at e
    · rw [Res.bind_eq_ok] at e
      obtain ⟨⟨nx, h2⟩, e2, e⟩ := e
      cases hShells_heap _ _ _ _ e2
      unfold HM.lift at e
      simp only [Res.bind_eq_ok] at e
      obtain ⟨⟨nx', h3⟩, ⟨hd, e3, e4⟩, e⟩ := e
      cases e4
      cases e
      exact fr_set hn hr
    · cases e
  · cases e

theorem hHListOf_frame (be : Backend F) (rs : List Ref) (dk : Bool) {h h' : Heap F} {r : Ref} (e : hHListOf be rs dk h = .ok (r, h')) :
    Fr h.length h h' := by
  unfold hHListOf HM.bind at e
  rw [Res.bind_eq_ok] at e
  obtain ⟨⟨cs, h1⟩, e1, e⟩ := e
  have f1 : Fr h.length h h1 := by
    cases dk with
    | true => exact hKern_frame be rs h cs h1 e1
    | false => cases e1; exact .rfl
  simp only [hAlloc, Res.ok_bind] at e
  rw [Res.bind_eq_ok] at e
  obtain ⟨⟨_, h2⟩, e2, e⟩ := e
  cases e
  refine f1.trans ((fr_alloc _ _ _ f1.1).trans (hHPack_frame ?_ f1.1 e2))
  have := f1.1
  simp
  omega

theorem hVListOf_frame (rs : List Ref) {h h' : Heap F} {r : Ref} (e : hVListOf rs h = .ok (r, h')) : Fr h.length h h' := by
  unfold hVListOf HM.bind at e
  simp only [hAlloc, Res.ok_bind] at e
  rw [Res.bind_eq_ok] at e
  obtain ⟨⟨_, h2⟩, e2, e⟩ := e
  cases e
  exact (fr_alloc _ _ _ (Nat.le_refl _)).trans (hVPack_frame (by simp) (Nat.le_refl _) e2)

theorem hHCentered_frame (be : Backend F) (rs : List Ref) {h h' : Heap F} {r : Ref} (e : hHCentered be rs h = .ok (r, h')) :
    Fr h.length h h' := by
  unfold hHCentered HM.bind at e
  simp only [hAlloc, Res.ok_bind] at e
  have := hHListOf_frame be _ _ e
  have f1 := fr_alloc h.length h (Cell.glue ssGlue) (Nat.le_refl _)
  have f2 := fr_alloc h.length (h ++ [Cell.glue ssGlue]) (Cell.glue ssGlue) (by simp)
  exact f1.trans (f2.trans (this.mono (by simp)))

theorem hVCentered_frame (rs : List Ref) {h h' : Heap F} {r : Ref} (e : hVCentered rs h = .ok (r, h')) : Fr h.length h h' := by
  unfold hVCentered HM.bind at e
  simp only [hAlloc, Res.ok_bind] at e
  have := hVListOf_frame _ e
  have f1 := fr_alloc h.length h (Cell.glue ssGlue) (Nat.le_refl _)
  have f2 := fr_alloc h.length (h ++ [Cell.glue ssGlue]) (Cell.glue ssGlue) (by simp)
  exact f1.trans (f2.trans (this.mono (by simp)))

/-- What `HPack` leaves in the list object. -/
theorem hHPack_self {h h' : Heap F} {r : Ref} {w : F} {a : Bool} {k : LKind} {hd : LHead F} {rs : List Ref}
    (hc : h[r]? = some (.list k hd rs)) (e : hHPack r w a h = .ok ((), h')) : ∃ hd', h' = h.set r (.list k hd' rs) := by
  unfold hHPack HM.bind hGet at e
  rw [hc] at e
  simp only [Res.ok_bind] at e
  rw [Res.bind_eq_ok] at e
  obtain ⟨⟨nx, h2⟩, e2, e⟩ := e
  cases hShells_heap _ _ _ _ e2
  cases e
  exact ⟨_, rfl⟩

theorem hVPack_self {h h' : Heap F} {r : Ref} {w : F} {a : Bool} {lim : F} {k : LKind} {hd : LHead F} {rs : List Ref}
    (hc : h[r]? = some (.list k hd rs)) (e : hVPack r w a lim h = .ok ((), h')) : ∃ hd', h' = h.set r (.list k hd' rs) := by
  unfold hVPack HM.bind hGet at e
  rw [hc] at e
  simp only [Res.ok_bind] at e
  rw [Res.bind_eq_ok] at e
  obtain ⟨⟨nx, h2⟩, e2, e⟩ := e
  cases hShells_heap _ _ _ _ e2
  unfold HM.lift at e
  simp only [Res.bind_eq_ok] at e
  obtain ⟨⟨nx', h3⟩, ⟨hd, e3, e4⟩, e⟩ := e
  cases e4
  cases e
  exact ⟨_, rfl⟩

/-- The children of a kerned list: the given ones and new `Kern` objects. -/
theorem hKern_holds (be : Backend F) (rs : List Ref) (n : Nat) (hrs : ∀ x ∈ rs, x < n) (h : Heap F) (hn : n ≤ h.length) (l : List Ref) (h' : Heap F)
    (e : hKern be rs h = .ok (l, h')) : l.filter (fun x => decide (x < n)) = rs ∧
      ∀ x ∈ l, x ∈ rs ∨ (x < h'.length ∧ ∃ w, h'[x]? = some (.kern ⟨0, w⟩)) := by
  induction rs generalizing h l h' with
  | nil => cases e; simp
  | cons r rs ih =>
    have hr : r < n := hrs r (by simp)
    have hrs' : ∀ x ∈ rs, x < n := fun x hx => hrs x (by simp [hx])
    simp only [hKern, HM.bind] at e
    rw [Res.bind_eq_ok] at e
    obtain ⟨⟨c, h1⟩, e1, e⟩ := e
    unfold hGet at e1
    split at e1
    · cases e1
      rw [Res.bind_eq_ok] at e
      obtain ⟨⟨nx, h2⟩, e2, e⟩ := e
      cases hShells_heap _ _ _ _ e2
      dsimp only at e
      split at e
      · simp only [hAlloc, HM.bind, Res.ok_bind] at e
        rw [Res.bind_eq_ok] at e
        obtain ⟨⟨l', h3⟩, e3, e⟩ := e
        cases e
        obtain ⟨a, b⟩ := ih hrs' _ (by simp; omega) _ _ e3
        have f := hKern_frame be _ _ _ _ e3
        refine ⟨?_, ?_⟩
        · rw [List.filter_cons_of_pos (by simpa using hr), List.filter_cons_of_neg (by simpa using hn), a]
        · intro x hx
          rcases List.mem_cons.1 hx with rfl | hx
          · exact .inl (by simp)
          rcases List.mem_cons.1 hx with rfl | hx
          · refine .inr ⟨Nat.lt_of_lt_of_le (by simp) f.1, ?_⟩
            rw [f.2 _ (by simp)]
            simp
          · rcases b x hx with b | b
            · exact .inl (by simp [b])
            · exact .inr b
      · simp only [HM.bind, Res.bind_eq_ok] at e
        obtain ⟨⟨l', h3⟩, e3, e⟩ := e
        cases e
        obtain ⟨a, b⟩ := ih hrs' _ hn _ _ e3
        refine ⟨?_, ?_⟩
        · rw [List.filter_cons_of_pos (by simpa using hr), a]
        · intro x hx
          rcases List.mem_cons.1 hx with rfl | hx
          · exact .inl (by simp)
          · rcases b x hx with b | b
            · exact .inl (by simp [b])
            · exact .inr b
    · cases e1

theorem hHListOf_holds (be : Backend F) (rs : List Ref) {h h' : Heap F} (hrs : ∀ x ∈ rs, x < h.length) (dk : Bool) {r : Ref}
    (e : hHListOf be rs dk h = .ok (r, h')) : ∃ hd cs, h'[r]? = some (.list .h hd cs) ∧ cs.filter (fun x => decide (x < h.length)) = rs ∧
      ∀ x ∈ cs, x ∈ rs ∨ ∃ w, h'[x]? = some (.kern ⟨0, w⟩) := by
  unfold hHListOf HM.bind at e
  rw [Res.bind_eq_ok] at e
  obtain ⟨⟨cs, h1⟩, e1, e⟩ := e
  have f1 : cs.filter (fun x => decide (x < h.length)) = rs ∧ ∀ x ∈ cs, x ∈ rs ∨ (x < h1.length ∧ ∃ w, h1[x]? = some (.kern ⟨0, w⟩)) := by
    cases dk with
    | true => exact hKern_holds be rs h.length hrs h (Nat.le_refl _) cs h1 e1
    | false =>
      cases e1
      exact ⟨List.filter_eq_self.2 fun x hx => by simpa using hrs x hx, fun x hx => .inl hx⟩
  simp only [hAlloc, Res.ok_bind] at e
  rw [Res.bind_eq_ok] at e
  obtain ⟨⟨_, h2⟩, e2, e⟩ := e
  cases e
  obtain ⟨hd', rfl⟩ := hHPack_self (List.getElem?_concat_length ..) e2
  refine ⟨hd', cs, by simp, f1.1, fun x hx => ?_⟩
  rcases f1.2 x hx with a | ⟨a, w, b⟩
  · exact .inl a
  · refine .inr ⟨w, ?_⟩
    rw [List.getElem?_set_ne (Nat.ne_of_gt a), List.getElem?_append_left a, b]

theorem hHListOf_holds_plain (be : Backend F) (rs : List Ref) {h h' : Heap F} {r : Ref}
    (e : hHListOf be rs false h = .ok (r, h')) : ∃ hd, h'[r]? = some (.list .h hd rs) := by
  unfold hHListOf HM.bind at e
  simp only [Bool.false_eq_true, if_false, HM.ret, hAlloc, Res.ok_bind] at e
  rw [Res.bind_eq_ok] at e
  obtain ⟨⟨_, h2⟩, e2, e⟩ := e
  cases e
  obtain ⟨hd', rfl⟩ := hHPack_self (List.getElem?_concat_length ..) e2
  exact ⟨hd', by simp⟩

theorem hVListOf_holds (rs : List Ref) {h h' : Heap F} {r : Ref}
    (e : hVListOf rs h = .ok (r, h')) : ∃ hd, h'[r]? = some (.list .v hd rs) := by
  unfold hVListOf HM.bind at e
  simp only [hAlloc, Res.ok_bind] at e
  rw [Res.bind_eq_ok] at e
  obtain ⟨⟨_, h2⟩, e2, e⟩ := e
  cases e
  obtain ⟨hd', rfl⟩ := hVPack_self (List.getElem?_concat_length ..) e2
  exact ⟨hd', by simp⟩
end

section
theorem Does.also {α : Type} {m : HM F α} {h : Heap F} {base : Nat} {Q : Heap F → α → Prop} {P : Heap F → Prop} (a : Does m h base Q)
    (k : ∀ a h', m h = .ok (a, h') → P h') : Does m h base (fun h' a => Q h' a ∧ P h') := by
  obtain ⟨a, h', e, f, q⟩ := a
  exact ⟨a, h', e, f, q, k a h' e⟩

theorem Run.also {α β : Type} {m : HM F α} {h : Heap F} {base : Nat} {p : Res β} {Q : Heap F → α → β → Prop} {P : Heap F → Prop}
    (a : Run m h base p Q) (k : ∀ a h', m h = .ok (a, h') → P h') : Run m h base p (fun h' a b => Q h' a b ∧ P h') := by
  unfold Run at a ⊢
  cases hm : m h with
  | ok q =>
    rw [hm] at a
    cases p with
    | ok b => exact ⟨a.1, a.2, k q.1 q.2 hm⟩
    | panic _ => exact a
    | fuel => exact a
  | panic _ => rw [hm] at a; cases p <;> exact a
  | fuel => rw [hm] at a; cases p <;> exact a

/-- Reading an object that is still what it was. -/
theorem does_get_frame {h h' : Heap F} {base : Nat} {r : Ref} {t : TNode F} {S : List Ref} (a : At h r t S) (hf : Fr h.length h h') :
    Does (hGet r) h' base (fun h'' c => h'' = h' ∧ ∃ rs, c = t.cell rs) := by
  have hr := a.lt r a.root
  rw [at_iff] at a
  obtain ⟨rs, S', e, _⟩ := a
  refine ⟨t.cell rs, h', ?_, .rfl, rfl, rs, rfl⟩
  rw [hGet, hf.2 r hr, e]
end

end Verif
