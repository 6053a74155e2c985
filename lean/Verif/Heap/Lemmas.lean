import Verif.Heap.Model
/-! Helper lemmas on the heap of reference counted objects (no property is stated here). -/
namespace Opk.Heap

/-- The count stored in the cell `a` (0 if there is no object). -/
def rc (h : Heap) (a : Nat) : Nat := match h.get a with | some o => o.refs | none => 0

/-- Occurrences of `a` among the members of a cell, provided the object is not being
finalized. -/
def cellKids (a : Nat) : Option Obj → Nat
  | some o => if 1 ≤ o.refs then o.kids.count a else 0
  | none => 0

/-- References on `a` owned by the live objects. -/
def intern (h : Heap) (a : Nat) : Nat := (h.cells.map (cellKids a)).sum

theorem sum_map_set {α} (f : α → Nat) (l : List α) (i : Nat) (x y : α) (hi : l[i]? = some y) :
    ((l.set i x).map f).sum + f y = (l.map f).sum + f x := by
  induction l generalizing i with
  | nil => simp at hi
  | cons z l ih =>
    cases i with
    | zero => simp at hi; subst hi; simp; omega
    | succ i => simp at hi; have := ih i hi; simp only [List.set_cons_succ, List.map_cons, List.sum_cons]; omega

theorem get_some {h : Heap} {a : Nat} {o : Obj} : h.get a = some o ↔ h.cells[a]? = some (some o) := by
  unfold Heap.get
  cases h.cells[a]? with
  | none => simp
  | some c => simp

theorem get_lt {h : Heap} {a : Nat} {o : Obj} (hg : h.get a = some o) : a < h.cells.length := by
  rw [get_some] at hg
  exact (List.getElem?_eq_some_iff.1 hg).1

theorem get_put {h : Heap} {a b : Nat} {c : Option Obj} (ha : a < h.cells.length) :
    (h.put a c).get b = if a = b then c else h.get b := by
  unfold Heap.put Heap.get
  simp only [List.getElem?_set]
  split
  · rename_i e; subst e; simp
  · rfl

theorem intern_put {h : Heap} {a b : Nat} {c : Option Obj} {o : Obj} (hg : h.get a = some o) :
    intern (h.put a c) b + cellKids b (some o) = intern h b + cellKids b c := by
  rw [get_some] at hg
  exact sum_map_set (cellKids b) h.cells a c (some o) hg

theorem total_put {h : Heap} {a : Nat} {c : Option Obj} {o : Obj} (hg : h.get a = some o) :
    total (h.put a c) + o.refs = total h + (match c with | some o => o.refs | none => 0) := by
  rw [get_some] at hg
  exact sum_map_set (fun c => match c with | some o => o.refs | none => 0) h.cells a c (some o) hg

theorem put_length {h : Heap} {a : Nat} {c : Option Obj} :
    (h.put a c).cells.length = h.cells.length := by simp [Heap.put]

theorem put_log {h : Heap} {a : Nat} {c : Option Obj} : (h.put a c).log = h.log := rfl

/-- Counting invariant: every stored count is the number of references owned outside of the
heap plus the number of references owned by the live objects. -/
def Counted (h : Heap) (ext : Nat → Nat) : Prop := ∀ a, rc h a = ext a + intern h a

/-- Relation between the heap before and after (a part of) a drop. -/
structure Shrinks (h h' : Heap) : Prop where
  len : h'.cells.length = h.cells.length
  rcle : ∀ b, rc h' b ≤ rc h b
  /-- objects only disappear or lose references -/
  sub : ∀ b o', h'.get b = some o' → ∃ o, h.get b = some o ∧ o'.kids = o.kids ∧ o'.rank = o.rank
  /-- objects already under finalization are left alone -/
  zombie : ∀ b o, h.get b = some o → o.refs = 0 → h'.get b = some o
  tot : total h' ≤ total h
  log : ∃ l, h'.log = h.log ++ l ∧ l.Nodup ∧ (∀ b, b ∈ l ↔ (∃ o, h.get b = some o) ∧ h'.get b = none)
  /-- nothing else than released objects reaches 0 -/
  pos : ∀ b o', h'.get b = some o' → o'.refs = 0 → h.get b = some o'

theorem Shrinks.refl (h : Heap) : Shrinks h h where
  len := rfl
  rcle _ := Nat.le_refl _
  sub _ o' ho := ⟨o', ho, rfl, rfl⟩
  zombie _ _ ho _ := ho
  tot := Nat.le_refl _
  log := ⟨[], by simp, by simp, by intro b; simp; intro o ho; simp [ho]⟩
  pos _ _ ho _ := ho

theorem Shrinks.trans {h h' h'' : Heap} (A : Shrinks h h') (B : Shrinks h' h'') : Shrinks h h'' where
  len := B.len.trans A.len
  rcle b := Nat.le_trans (B.rcle b) (A.rcle b)
  sub b o' ho := by
    obtain ⟨o, h1, h2, h3⟩ := B.sub b o' ho
    obtain ⟨q, k1, k2, k3⟩ := A.sub b o h1
    exact ⟨q, k1, h2.trans k2, h3.trans k3⟩
  zombie b o ho h0 := B.zombie b o (A.zombie b o ho h0) h0
  tot := Nat.le_trans B.tot A.tot
  log := by
    obtain ⟨l, e, n, m⟩ := A.log
    obtain ⟨l', e', n', m'⟩ := B.log
    refine ⟨l ++ l', by rw [e', e, List.append_assoc], ?_, ?_⟩
    · refine List.nodup_append.2 ⟨n, n', ?_⟩
      intro a ha b hb hab
      subst hab
      have h1 := (m a).1 ha
      have h2 := (m' a).1 hb
      obtain ⟨o, ho⟩ := h2.1
      rw [h1.2] at ho; cases ho
    · intro b
      rw [List.mem_append, m, m']
      constructor
      · rintro (⟨⟨o, ho⟩, hn⟩ | ⟨⟨o, ho⟩, hn⟩)
        · refine ⟨⟨o, ho⟩, ?_⟩
          cases hb : h''.get b with
          | none => rfl
          | some o'' =>
            obtain ⟨q, hq, _⟩ := B.sub b o'' hb
            rw [hn] at hq; cases hq
        · obtain ⟨q, hq, _⟩ := A.sub b o ho
          exact ⟨⟨q, hq⟩, hn⟩
      · rintro ⟨⟨o, ho⟩, hn⟩
        cases hb : h'.get b with
        | none => exact Or.inl ⟨⟨o, ho⟩, rfl⟩
        | some o' => exact Or.inr ⟨⟨o', rfl⟩, hn⟩
  pos b o' ho h0 := A.pos b o' (B.pos b o' ho h0) h0

/-- External references after one of them has been given up. -/
def less (ext : Nat → Nat) (a : Nat) : Nat → Nat := fun b => if b = a then ext b - 1 else ext b

theorem rc_of_get {h : Heap} {a : Nat} {o : Obj} (hg : h.get a = some o) : rc h a = o.refs := by
  simp [rc, hg]

/-- Specification of the drop of a list of references by a finalizer. -/
theorem dropAll_ok (fuel : Nat)
    (IH : ∀ (h : Heap) (ext : Nat → Nat) (a : Nat), Counted h ext → 1 ≤ ext a → total h < fuel →
      ∃ h', drop fuel h a = some h' ∧ Counted h' (less ext a) ∧ Shrinks h h')
    (l : List Nat) : ∀ (h : Heap) (ext : Nat → Nat), Counted h (fun b => ext b + l.count b) →
      total h < fuel →
      ∃ h', dropAll (drop fuel) h l = some h' ∧ Counted h' ext ∧ Shrinks h h' := by
  induction l with
  | nil =>
    intro h ext hc _
    exact ⟨h, by simp [dropAll], by simpa using hc, Shrinks.refl h⟩
  | cons a l ihl =>
    intro h ext hc hf
    obtain ⟨h1, e1, c1, s1⟩ := IH h _ a hc (by simp; omega) hf
    have c1' : Counted h1 (fun b => ext b + l.count b) := by
      intro b
      have := c1 b
      rw [this]
      simp only [less]
      by_cases hb : b = a
      · subst hb; simp
      · have : ¬ a = b := fun e => hb e.symm
        simp [hb, this]
    obtain ⟨h2, e2, c2, s2⟩ := ihl h1 ext c1' (Nat.lt_of_le_of_lt s1.tot hf)
    refine ⟨h2, ?_, c2, s1.trans s2⟩
    rw [dropAll, e1]; exact e2

/-- Specification of `opk_drop_object`. -/
theorem drop_ok (fuel : Nat) : ∀ (h : Heap) (ext : Nat → Nat) (a : Nat), Counted h ext → 1 ≤ ext a →
    total h < fuel →
    ∃ h', drop fuel h a = some h' ∧ Counted h' (less ext a) ∧ Shrinks h h' := by
  induction fuel with
  | zero => intro h ext a _ _ hf; omega
  | succ fuel ih =>
    intro h ext a hc hx hf
    have hra : 1 ≤ rc h a := by rw [hc a]; omega
    cases hg : h.get a with
    | none => simp [rc, hg] at hra
    | some o =>
      have hro : rc h a = o.refs := rc_of_get hg
      have hlt := get_lt hg
      rw [drop]
      simp only [hg]
      cases hr : o.refs with
      | zero => omega
      | succ r =>
        simp only []
        have hget1 : ∀ b, (h.put a (some { o with refs := r })).get b
            = if a = b then some { o with refs := r } else h.get b := fun b => get_put hlt
        have hrc1 : ∀ b, rc (h.put a (some { o with refs := r })) b
            = if a = b then r else rc h b := by
          intro b
          unfold rc
          rw [hget1]
          by_cases hb : a = b <;> simp [hb]
        have htot1 := total_put (c := some { o with refs := r }) hg
        have hint1 := fun b => intern_put (b := b) (c := some { o with refs := r }) hg
        simp only at htot1
        by_cases hr0 : r < 1
        · -- the last reference
          have hr00 : r = 0 := by omega
          subst hr00
          rw [if_pos (by omega)]
          have hc1 : Counted (h.put a (some { o with refs := 0 }))
              (fun b => less ext a b + o.kids.count b) := by
            intro b
            rw [hrc1]
            have h1 := hint1 b
            simp only [cellKids, hr] at h1
            have h2 := hc b
            simp only [less]
            by_cases hb : a = b
            · subst hb
              simp at h1 ⊢
              omega
            · have : ¬ b = a := fun e => hb e.symm
              simp [hb, this] at h1 ⊢
              omega
          obtain ⟨h2, e2, c2, s2⟩ := dropAll_ok fuel ih o.kids _ _ hc1 (by omega)
          rw [e2]
          have hz : h2.get a = some { o with refs := 0 } :=
            s2.zombie a _ (by rw [hget1]; simp) rfl
          have hlt2 := get_lt hz
          have hget3 : ∀ b, (h2.put a none).get b = if a = b then none else h2.get b :=
            fun b => get_put hlt2
          have hg3 : ∀ b, Heap.get { cells := (h2.put a none).cells, log := h2.log ++ [a] } b
              = if a = b then none else h2.get b := fun b => hget3 b
          refine ⟨_, rfl, ?_, ?_⟩
          · intro b
            have h3 := intern_put (b := b) (c := none) hz
            simp only [cellKids] at h3
            simp at h3
            have h4 := c2 b
            have h5 : intern { cells := (h2.put a none).cells, log := h2.log ++ [a] } b
              = intern (h2.put a none) b := rfl
            rw [h5, h3, ← h4]
            unfold rc
            rw [hg3]
            by_cases hb : a = b
            · subst hb; simp [hz]
            · simp [hb]
          · constructor
            · show (h2.put a none).cells.length = _
              rw [put_length, s2.len, put_length]
            · intro b
              unfold rc
              rw [hg3]
              by_cases hb : a = b
              · simp [hb]
              · simp only [hb, if_false]
                have h1 := s2.rcle b
                rw [hrc1] at h1
                simp [hb] at h1
                exact h1
            · intro b o' ho
              rw [hg3] at ho
              by_cases hb : a = b
              · simp [hb] at ho
              · simp [hb] at ho
                obtain ⟨q, k1, k2, k3⟩ := s2.sub b o' ho
                rw [hget1] at k1
                simp [hb] at k1
                exact ⟨q, k1, k2, k3⟩
            · intro b q hq hq0
              rw [hg3]
              by_cases hb : a = b
              · subst hb
                rw [hg] at hq
                cases hq; omega
              · simp only [hb, if_false]
                apply s2.zombie b q _ hq0
                rw [hget1]; simp [hb, hq]
            · have h3 := total_put (c := none) hz
              have h4 := s2.tot
              simp only at h3
              show total (h2.put a none) ≤ _
              omega
            · obtain ⟨l, e, n, m⟩ := s2.log
              have hal : a ∉ l := by
                intro ha
                have := ((m a).1 ha).2
                rw [hz] at this; cases this
              refine ⟨l ++ [a], by simp only [e, put_log, List.append_assoc], ?_, ?_⟩
              · refine List.nodup_append.2 ⟨n, by simp, ?_⟩
                intro x hxl y hy hxy
                simp at hy; subst hy; subst hxy; exact hal hxl
              · intro b
                rw [hg3, List.mem_append, m, hget1]
                by_cases hb : a = b
                · subst hb
                  simp [hg]
                · have hb' : ¬ b = a := fun e => hb e.symm
                  simp [hb, hb']
            · intro b o' ho ho0
              rw [hg3] at ho
              by_cases hb : a = b
              · simp [hb] at ho
              · simp [hb] at ho
                have h1 := s2.pos b o' ho ho0
                rw [hget1] at h1
                simpa [hb] using h1
        · rw [if_neg hr0]
          refine ⟨_, rfl, ?_, ?_⟩
          · intro b
            rw [hrc1]
            have h1 := hint1 b
            have h2 := hc b
            have e1 : cellKids b (some { o with refs := r }) = cellKids b (some o) := by
              have : 1 ≤ r := by omega
              simp [cellKids, hr, this]
            rw [e1] at h1
            simp only [less]
            by_cases hb : a = b
            · subst hb; simp; omega
            · have hb' : ¬ b = a := fun e => hb e.symm
              simp [hb, hb']; omega
          · constructor
            · exact put_length
            · intro b
              rw [hrc1]
              split
              · rename_i e; subst e; omega
              · exact Nat.le_refl _
            · intro b o' ho
              rw [hget1] at ho
              split at ho
              · rename_i e; subst e; cases ho; exact ⟨o, hg, rfl, rfl⟩
              · exact ⟨o', ho, rfl, rfl⟩
            · intro b q hq hq0
              rw [hget1]
              split
              · rename_i e; subst e; rw [hg] at hq; cases hq; omega
              · exact hq
            · omega
            · refine ⟨[], by simp [put_log], by simp, ?_⟩
              intro b
              rw [hget1]
              split
              · simp
              · simp; intro x hx; simp [hx]
            · intro b o' ho ho0
              rw [hget1] at ho
              split at ho
              · cases ho; simp at ho0; omega
              · exact ho

end Opk.Heap
