import Verif.Heap.Lemmas
/-!
# C04: reference counting is safe and leak free; C52: holding `NULL`

The specification below only looks at the calls made by the client: which objects have been
created, how many references the client owns on each of them, and which objects have been
stored as members of other objects.
-/
namespace Opk.Heap

/-! ## Specification -/

/-- What the client knows: number of objects created so far, references it owns, members
stored in each object, class (rank) of each object. -/
structure Client where
  next : Nat
  own : Nat → Nat
  kids : Nat → List Nat
  rank : Nat → Nat

/-- The client before its first call. -/
def Client.start : Client := { next := 0, own := fun _ => 0, kids := fun _ => [], rank := fun _ => 0 }

/-- Point update. -/
def upd {α} (f : Nat → α) (a : Nat) (x : α) : Nat → α := fun b => if b = a then x else f b

/-- Objects the client can reach: those it owns a reference on and, transitively, their
members (as returned by `opk_get_vspace`, ...). -/
inductive Reach (c : Client) : Nat → Prop where
  | owned (a : Nat) : 1 ≤ c.own a → Reach c a
  | member (p a : Nat) : Reach c p → a ∈ c.kids p → Reach c a

/-- Bookkeeping of one call. -/
def Client.call (c : Client) : Op → Client
  | .new r => { next := c.next + 1, own := upd c.own c.next 1, kids := upd c.kids c.next [],
                rank := upd c.rank c.next r }
  | .hold a => { c with own := upd c.own a (c.own a + 1) }
  | .drop a => { c with own := upd c.own a (c.own a - 1) }
  | .linkHold p k => { c with kids := upd c.kids p (c.kids p ++ [k]) }
  | .linkMove p k => { c with kids := upd c.kids p (c.kids p ++ [k]),
                              own := upd c.own k (c.own k - 1) }

/-- The rules of the game: one may hold any object one can reach, one may only drop (or give
away) a reference one owns, and members are always of a lower class than the object they are
stored in (no reference cycle). -/
def Client.Allowed (c : Client) : Op → Prop
  | .new _ => True
  | .hold a => Reach c a
  | .drop a => 1 ≤ c.own a
  | .linkHold p k => Reach c p ∧ Reach c k ∧ c.rank k < c.rank p
  | .linkMove p k => Reach c p ∧ 1 ≤ c.own k ∧ c.rank k < c.rank p

/-- A history which respects the rules. -/
def Client.Correct (c : Client) : List Op → Prop
  | [] => True
  | op :: ops => c.Allowed op ∧ (c.call op).Correct ops

/-- The client after a history. -/
def Client.after (c : Client) (ops : List Op) : Client := ops.foldl Client.call c

/-- The object at address `a` has been released. -/
def Released (h : Heap) (a : Nat) : Prop := h.get a = none

/-! ## Invariant -/

structure Inv (c : Client) (h : Heap) : Prop where
  counted : Counted h c.own
  len : h.cells.length = c.next
  pos : ∀ a o, h.get a = some o → 1 ≤ o.refs
  shape : ∀ a o, h.get a = some o → o.kids = c.kids a ∧ o.rank = c.rank a
  lower : ∀ p k, k ∈ c.kids p → c.rank k < c.rank p
  fresh : ∀ a, c.next ≤ a → c.own a = 0 ∧ c.kids a = []
  low : ∀ p k, k ∈ c.kids p → k < c.next
  nodup : h.log.Nodup
  logged : ∀ a, a ∈ h.log ↔ a < c.next ∧ h.get a = none

theorem inv_start : Inv Client.start empty where
  counted := by intro a; simp [rc, empty, Heap.get, Client.start, intern]
  len := rfl
  pos := by intro a o h; simp [empty, Heap.get] at h
  shape := by intro a o h; simp [empty, Heap.get] at h
  lower := by intro p k h; simp [Client.start] at h
  fresh := by intro a _; simp [Client.start]
  low := by intro p k h; simp [Client.start] at h
  nodup := by simp [empty]
  logged := by intro a; simp [empty, Client.start]

theorem one_le_intern {h : Heap} {p a : Nat} {o : Obj} (hg : h.get p = some o) (hr : 1 ≤ o.refs)
    (ha : a ∈ o.kids) : 1 ≤ intern h a := by
  have h1 := intern_put (b := a) (c := none) hg
  have h2 : 1 ≤ o.kids.count a := List.one_le_count_iff.2 ha
  simp only [cellKids, hr, if_true] at h1
  omega

theorem live_of_rc {h : Heap} {a : Nat} (hr : 1 ≤ rc h a) : ∃ o, h.get a = some o := by
  unfold rc at hr
  cases hg : h.get a with
  | none => simp [hg] at hr
  | some o => exact ⟨o, rfl⟩

theorem Inv.live_of_own {c : Client} {h : Heap} (I : Inv c h) {a : Nat} (ha : 1 ≤ c.own a) :
    ∃ o, h.get a = some o := by
  apply live_of_rc
  rw [I.counted a]; omega

theorem Inv.live_of_reach {c : Client} {h : Heap} (I : Inv c h) {a : Nat} (ha : Reach c a) :
    ∃ o, h.get a = some o := by
  induction ha with
  | owned a h1 => exact I.live_of_own h1
  | member p a _ hm ih =>
    obtain ⟨o, ho⟩ := ih
    apply live_of_rc
    rw [I.counted a]
    have := one_le_intern ho (I.pos p o ho) (by rw [(I.shape p o ho).1]; exact hm)
    omega

theorem intern_pos {h : Heap} {a : Nat} (hi : 1 ≤ intern h a) :
    ∃ p o, h.get p = some o ∧ 1 ≤ o.refs ∧ a ∈ o.kids := by
  unfold intern at hi
  have : ∃ x ∈ h.cells.map (cellKids a), 1 ≤ x := by
    apply Classical.byContradiction
    intro hn
    have : (h.cells.map (cellKids a)).sum = 0 := by
      have hall : ∀ x ∈ h.cells.map (cellKids a), x = 0 := by
        intro x hx
        apply Classical.byContradiction
        intro h0
        exact hn ⟨x, hx, by omega⟩
      generalize h.cells.map (cellKids a) = l at hall
      induction l with
      | nil => rfl
      | cons y l ih =>
        have h1 := hall y (by simp)
        have h2 := ih (fun x hx => hall x (by simp [hx]))
        simp [h1, h2]
    omega
  obtain ⟨x, hx, h1⟩ := this
  obtain ⟨cell, hc, e⟩ := List.mem_map.1 hx
  obtain ⟨p, hp⟩ := List.mem_iff_getElem?.1 hc
  cases cell with
  | none => simp [cellKids] at e; omega
  | some o =>
    simp only [cellKids] at e
    split at e
    · refine ⟨p, o, get_some.2 hp, by assumption, ?_⟩
      apply List.one_le_count_iff.1
      omega
    · omega

/-- A live object is reachable. -/
theorem Inv.reach_of_live {c : Client} {h : Heap} (I : Inv c h) {a : Nat} {o : Obj}
    (ho : h.get a = some o) : Reach c a := by
  have hbound : ∃ M, ∀ b, b < c.next → c.rank b ≤ M := by
    generalize c.next = n
    induction n with
    | zero => exact ⟨0, by intro b hb; omega⟩
    | succ n ih =>
      obtain ⟨M, hM⟩ := ih
      refine ⟨max M (c.rank n), ?_⟩
      intro b hb
      by_cases h1 : b = n
      · subst h1; omega
      · have := hM b (by omega); omega
  obtain ⟨M, hM⟩ := hbound
  have key : ∀ d a o, h.get a = some o → M - c.rank a = d → Reach c a := by
    intro d
    induction d using Nat.strongRecOn with
    | _ d ih =>
      intro a o ho hd
      by_cases h1 : 1 ≤ c.own a
      · exact Reach.owned a h1
      · have h2 := I.counted a
        have h3 := I.pos a o ho
        rw [rc_of_get ho] at h2
        obtain ⟨p, q, hq, _, hk⟩ := intern_pos (h := h) (a := a) (by omega)
        rw [(I.shape p q hq).1] at hk
        have hl := I.lower p a hk
        have hp : p < c.next := by rw [← I.len]; exact get_lt hq
        have := hM p hp
        exact Reach.member p a (ih (M - c.rank p) (by omega) p q hq rfl) hk
  exact key _ a o ho rfl

theorem get_append {h : Heap} {x : Option Obj} {b : Nat} :
    Heap.get { h with cells := h.cells ++ [x] } b = if b = h.cells.length then x else h.get b := by
  unfold Heap.get
  by_cases h1 : b < h.cells.length
  · have : ¬ b = h.cells.length := by omega
    simp [List.getElem?_append_left h1, this]
  · by_cases h2 : b = h.cells.length
    · subst h2; simp
    · have h3 : h.cells.length + 1 ≤ b := by omega
      have h4 : (h.cells ++ [x])[b]? = none := by simp; omega
      have h5 : h.cells[b]? = none := by simp; omega
      simp [h4, h5, h2]

theorem step_inv {c : Client} {h : Heap} (I : Inv c h) (op : Op) (ok : c.Allowed op) :
    ∃ h', step h op = some h' ∧ Inv (c.call op) h' := by
  cases op with
  | new r =>
    refine ⟨_, rfl, ?_⟩
    have hget : ∀ b, Heap.get (alloc h r).1 b
        = if b = c.next then some { refs := 1, kids := [], rank := r } else h.get b := by
      intro b; rw [← I.len]; exact get_append
    have hold0 : h.get c.next = none := by
      cases hg : h.get c.next with
      | none => rfl
      | some o => have := get_lt hg; rw [I.len] at this; omega
    have hint : ∀ b, intern (alloc h r).1 b = intern h b := by
      intro b
      simp [alloc, intern, cellKids]
    constructor
    · intro b
      rw [hint]
      have h1 := I.counted b
      simp only [Client.call, upd]
      unfold rc at h1 ⊢
      rw [hget]
      by_cases hb : b = c.next
      · subst hb
        simp [hold0] at h1 ⊢
        have := (I.fresh c.next (Nat.le_refl _)).1
        omega
      · simp [hb]; exact h1
    · simp [alloc, Client.call, I.len]
    · intro a o ho
      rw [hget] at ho
      split at ho
      · cases ho; simp
      · exact I.pos a o ho
    · intro a o ho
      rw [hget] at ho
      simp only [Client.call, upd]
      split at ho
      · rename_i e; cases ho; simp [e]
      · rename_i e; simp [e]; exact I.shape a o ho
    · intro p k hk
      simp only [Client.call, upd] at hk ⊢
      split at hk
      · simp at hk
      · rename_i e
        have h1 := I.low p k hk
        have h2 : ¬ k = c.next := by omega
        simp [e, h2]; exact I.lower p k hk
    · intro a ha
      simp only [Client.call, upd] at ha ⊢
      have : ¬ a = c.next := by omega
      simp [this]; exact I.fresh a (by omega)
    · intro p k hk
      simp only [Client.call, upd] at hk ⊢
      split at hk
      · simp at hk
      · have := I.low p k hk; omega
    · exact I.nodup
    · intro a
      rw [hget]
      show a ∈ h.log ↔ _
      rw [I.logged]
      simp only [Client.call]
      by_cases ha : a = c.next
      · simp [ha]
      · simp [ha]; intro _; omega
  | hold a =>
    obtain ⟨o, ho⟩ := I.live_of_reach ok
    have hlt := get_lt ho
    refine ⟨h.put a (some { o with refs := o.refs + 1 }), ?_, ?_⟩
    · simp [step, hold, ho]
    have hget : ∀ b, (h.put a (some { o with refs := o.refs + 1 })).get b
        = if a = b then some { o with refs := o.refs + 1 } else h.get b := fun b => get_put hlt
    have hp := I.pos a o ho
    constructor
    · intro b
      have h1 := I.counted b
      have h2 := intern_put (b := b) (c := some { o with refs := o.refs + 1 }) ho
      have h3 : 1 ≤ o.refs + 1 := by omega
      simp only [cellKids, hp, h3, if_true] at h2
      simp only [Client.call, upd]
      unfold rc at h1 ⊢
      rw [hget]
      by_cases hb : a = b
      · subst hb; simp [ho] at h1 ⊢; omega
      · have hb' : ¬ b = a := fun e => hb e.symm
        simp [hb, hb']; omega
    · rw [put_length]; exact I.len
    · intro b q hq
      rw [hget] at hq
      split at hq
      · cases hq; simp
      · exact I.pos b q hq
    · intro b q hq
      rw [hget] at hq
      split at hq
      · rename_i e; subst e; cases hq; exact I.shape a o ho
      · exact I.shape b q hq
    · exact I.lower
    · intro b hb
      have h1 := I.fresh b hb
      have : ¬ b = a := by
        intro e; subst e; rw [I.len] at hlt; exact absurd hlt (by simp only [Client.call] at hb; omega)
      simp only [Client.call, upd, this, if_false]; exact h1
    · exact I.low
    · exact I.nodup
    · intro b
      rw [hget]
      show b ∈ h.log ↔ _
      rw [I.logged]
      by_cases hb : a = b
      · subst hb; simp [ho]
      · simp [hb, Client.call]
  | drop a =>
    obtain ⟨h', e, hc, hs⟩ := drop_ok (total h + 1) h c.own a I.counted ok (by omega)
    refine ⟨h', by simpa [step, dropObject] using e, ?_⟩
    constructor
    · intro b
      rw [hc b]
      simp only [Client.call, upd, less]
      by_cases hb : b = a
      · subst hb; simp
      · simp [hb]
    · rw [hs.len]; exact I.len
    · intro b o' ho'
      apply Classical.byContradiction
      intro h0
      have h1 := hs.pos b o' ho' (by omega)
      have := I.pos b o' h1
      omega
    · intro b o' ho'
      obtain ⟨o, k1, k2, k3⟩ := hs.sub b o' ho'
      have := I.shape b o k1
      exact ⟨k2.trans this.1, k3.trans this.2⟩
    · exact I.lower
    · intro b hb
      have h1 := I.fresh b hb
      simp only [Client.call, upd]
      by_cases hb : b = a
      · subst hb; simp [h1]
      · simp [hb, h1]
    · exact I.low
    · obtain ⟨l, e, n, m⟩ := hs.log
      rw [e]
      refine List.nodup_append.2 ⟨I.nodup, n, ?_⟩
      intro x hx y hy hxy
      subst hxy
      have h1 := ((I.logged x).1 hx).2
      obtain ⟨q, hq⟩ := ((m x).1 hy).1
      rw [h1] at hq; cases hq
    · intro b
      obtain ⟨l, e, n, m⟩ := hs.log
      rw [e, List.mem_append, I.logged, m]
      show _ ↔ b < c.next ∧ _
      constructor
      · rintro (⟨h1, h2⟩ | ⟨⟨q, hq⟩, h2⟩)
        · refine ⟨h1, ?_⟩
          cases hb : h'.get b with
          | none => rfl
          | some o' =>
            obtain ⟨q, hq, _⟩ := hs.sub b o' hb
            rw [h2] at hq; cases hq
        · refine ⟨?_, h2⟩
          rw [← I.len]; exact get_lt hq
      · rintro ⟨h1, h2⟩
        cases hb : h.get b with
        | none => exact Or.inl ⟨h1, rfl⟩
        | some o => exact Or.inr ⟨⟨o, rfl⟩, h2⟩
  | linkHold p k =>
    obtain ⟨rp, rk, hrank⟩ := ok
    obtain ⟨op, hop⟩ := I.live_of_reach rp
    obtain ⟨ok, hok⟩ := I.live_of_reach rk
    have hltp := get_lt hop
    have hltk := get_lt hok
    have hne : ¬ p = k := by intro e; subst e; omega
    have hget1 : ∀ b, (h.put p (some { op with kids := op.kids ++ [k] })).get b
        = if p = b then some { op with kids := op.kids ++ [k] } else h.get b :=
      fun b => get_put hltp
    have hk1 : (h.put p (some { op with kids := op.kids ++ [k] })).get k = some ok := by
      rw [hget1]; simp [hne, hok]
    have hlt1 := get_lt hk1
    refine ⟨(h.put p (some { op with kids := op.kids ++ [k] })).put k
      (some { ok with refs := ok.refs + 1 }), ?_, ?_⟩
    · simp [step, linkHold, hold, hop, hk1]
    have hget : ∀ b, ((h.put p (some { op with kids := op.kids ++ [k] })).put k
        (some { ok with refs := ok.refs + 1 })).get b
        = if k = b then some { ok with refs := ok.refs + 1 }
          else if p = b then some { op with kids := op.kids ++ [k] } else h.get b := by
      intro b; rw [get_put hlt1, hget1]
    have hpp := I.pos p op hop
    have hpk := I.pos k ok hok
    have hsp := I.shape p op hop
    have hsk := I.shape k ok hok
    constructor
    · intro b
      have h1 := I.counted b
      have h2 := intern_put (b := b) (c := some { op with kids := op.kids ++ [k] }) hop
      have h3 := intern_put (b := b) (c := some { ok with refs := ok.refs + 1 }) hk1
      have h4 : 1 ≤ ok.refs + 1 := by omega
      simp only [cellKids, hpp, hpk, h4, if_true, List.count_append] at h2 h3
      simp only [Client.call]
      unfold rc at h1 ⊢
      rw [hget]
      by_cases hb : k = b
      · subst hb; simp [hok] at h1 h2 ⊢; omega
      · simp only [hb, if_false]
        have h5 : List.count b [k] = 0 := by simp [hb]
        by_cases hb2 : p = b
        · subst hb2; simp [hop] at h1 ⊢; omega
        · simp only [hb2, if_false]; omega
    · rw [put_length, put_length]; exact I.len
    · intro b q hq
      rw [hget] at hq
      split at hq
      · cases hq; simp
      · split at hq
        · cases hq; exact hpp
        · exact I.pos b q hq
    · intro b q hq
      rw [hget] at hq
      simp only [Client.call, upd]
      split at hq
      · rename_i e; subst e; cases hq
        have : ¬ k = p := fun e => hne e.symm
        simp [this]; exact hsk
      · split at hq
        · rename_i e; subst e; cases hq; simp [hsp]
        · rename_i e2
          have : ¬ b = p := fun e => e2 e.symm
          simp [this]; exact I.shape b q hq
    · intro a b hb
      simp only [Client.call, upd] at hb ⊢
      split at hb
      · rename_i e; subst e
        rcases List.mem_append.1 hb with hb | hb
        · exact I.lower a b hb
        · simp at hb; subst hb; exact hrank
      · exact I.lower a b hb
    · intro b hb
      have h1 := I.fresh b hb
      have : ¬ b = p := by
        intro e; subst e; rw [I.len] at hltp; exact absurd hltp (by simp only [Client.call] at hb; omega)
      simp only [Client.call, upd, this, if_false]; exact h1
    · intro a b hb
      simp only [Client.call, upd] at hb ⊢
      split at hb
      · rename_i e; subst e
        rcases List.mem_append.1 hb with hb | hb
        · exact I.low a b hb
        · simp at hb; subst hb; rw [← I.len]; exact hltk
      · exact I.low a b hb
    · exact I.nodup
    · intro b
      rw [hget]
      show b ∈ h.log ↔ _
      rw [I.logged]
      by_cases hb : k = b
      · subst hb; simp [hok]
      · by_cases hb2 : p = b
        · subst hb2; simp [hop, hb]
        · simp [hb, hb2, Client.call]
  | linkMove p k =>
    obtain ⟨rp, hown, hrank⟩ := ok
    obtain ⟨op, hop⟩ := I.live_of_reach rp
    obtain ⟨ok, hok⟩ := I.live_of_own hown
    have hltp := get_lt hop
    have hltk := get_lt hok
    have hne : ¬ p = k := by intro e; subst e; omega
    have hget : ∀ b, (h.put p (some { op with kids := op.kids ++ [k] })).get b
        = if p = b then some { op with kids := op.kids ++ [k] } else h.get b :=
      fun b => get_put hltp
    refine ⟨h.put p (some { op with kids := op.kids ++ [k] }), ?_, ?_⟩
    · simp [step, linkMove, hop]
    have hpp := I.pos p op hop
    have hsp := I.shape p op hop
    constructor
    · intro b
      have h1 := I.counted b
      have h2 := intern_put (b := b) (c := some { op with kids := op.kids ++ [k] }) hop
      simp only [cellKids, hpp, if_true, List.count_append] at h2
      simp only [Client.call, upd]
      unfold rc at h1 ⊢
      rw [hget]
      by_cases hb : b = k
      · subst hb; simp [hne, hok] at h1 h2 ⊢; omega
      · have hb' : ¬ k = b := fun e => hb e.symm
        have h5 : List.count b [k] = 0 := by simp [hb']
        simp only [hb, if_false]
        by_cases hb2 : p = b
        · subst hb2; simp [hop] at h1 ⊢; omega
        · simp only [hb2, if_false]; omega
    · rw [put_length]; exact I.len
    · intro b q hq
      rw [hget] at hq
      split at hq
      · cases hq; exact hpp
      · exact I.pos b q hq
    · intro b q hq
      rw [hget] at hq
      simp only [Client.call, upd]
      split at hq
      · rename_i e; subst e; cases hq; simp [hsp]
      · rename_i e2
        have : ¬ b = p := fun e => e2 e.symm
        simp [this]; exact I.shape b q hq
    · intro a b hb
      simp only [Client.call, upd] at hb ⊢
      split at hb
      · rename_i e; subst e
        rcases List.mem_append.1 hb with hb | hb
        · exact I.lower a b hb
        · simp at hb; subst hb; exact hrank
      · exact I.lower a b hb
    · intro b hb
      have h1 := I.fresh b hb
      have h2 : ¬ b = p := by
        intro e; subst e; rw [I.len] at hltp; exact absurd hltp (by simp only [Client.call] at hb; omega)
      have h3 : ¬ b = k := by
        intro e; subst e; rw [I.len] at hltk; exact absurd hltk (by simp only [Client.call] at hb; omega)
      simp only [Client.call, upd, h2, h3, if_false]; exact h1
    · intro a b hb
      simp only [Client.call, upd] at hb ⊢
      split at hb
      · rename_i e; subst e
        rcases List.mem_append.1 hb with hb | hb
        · exact I.low a b hb
        · simp at hb; subst hb; rw [← I.len]; exact hltk
      · exact I.low a b hb
    · exact I.nodup
    · intro b
      rw [hget]
      show b ∈ h.log ↔ _
      rw [I.logged]
      by_cases hb2 : p = b
      · subst hb2; simp [hop]
      · simp [hb2, Client.call]

theorem run_inv (ops : List Op) : ∀ (c : Client) (h : Heap), Inv c h → c.Correct ops →
    ∃ h', run h ops = some h' ∧ Inv (c.after ops) h' := by
  induction ops with
  | nil => intro c h I _; exact ⟨h, rfl, I⟩
  | cons op ops ih =>
    intro c h I hc
    obtain ⟨h1, e1, I1⟩ := step_inv I op hc.1
    obtain ⟨h2, e2, I2⟩ := ih _ _ I1 hc.2
    exact ⟨h2, by simp [run, e1, e2], I2⟩

/-! ## C04 -/

/-- **C04 (safety).** No history of a client which respects the rules leads to undefined
behaviour (use after free, double release, unbounded recursion). -/
theorem run_safe (ops : List Op) (ok : Client.start.Correct ops) :
    ∃ h, run empty ops = some h := by
  obtain ⟨h, e, _⟩ := run_inv ops _ _ inv_start ok
  exact ⟨h, e⟩

/-- **C04 (exact life time).** After any correct history an object has been released if and
only if the client cannot reach it any more from the references it owns. -/
theorem released_iff_unreachable (ops : List Op) (ok : Client.start.Correct ops) (h : Heap)
    (e : run empty ops = some h) (a : Nat) (_ha : a < (Client.start.after ops).next) :
    Released h a ↔ ¬ Reach (Client.start.after ops) a := by
  obtain ⟨h', e', I⟩ := run_inv ops _ _ inv_start ok
  rw [e] at e'; cases e'
  constructor
  · intro hr hreach
    obtain ⟨o, ho⟩ := I.live_of_reach hreach
    rw [Released, ho] at hr; cases hr
  · intro hn
    unfold Released
    cases hg : h.get a with
    | none => rfl
    | some o => exact absurd (I.reach_of_live hg) hn

/-- **C04 (released once).** Each object is released at most once: the log of releases has no
duplicate and contains exactly the released objects. -/
theorem released_once (ops : List Op) (ok : Client.start.Correct ops) (h : Heap)
    (e : run empty ops = some h) :
    h.log.Nodup ∧ ∀ a, a ∈ h.log ↔ a < (Client.start.after ops).next ∧ Released h a := by
  obtain ⟨h', e', I⟩ := run_inv ops _ _ inv_start ok
  rw [e] at e'; cases e'
  exact ⟨I.nodup, I.logged⟩

/-- **C04 (no leak).** When the client has dropped all the references it owns, every object
ever created has been released. -/
theorem no_leak (ops : List Op) (ok : Client.start.Correct ops) (h : Heap)
    (e : run empty ops = some h) (none_left : ∀ a, (Client.start.after ops).own a = 0)
    (a : Nat) (ha : a < (Client.start.after ops).next) : a ∈ h.log := by
  rw [(released_once ops ok h e).2]
  refine ⟨ha, (released_iff_unreachable ops ok h e a ha).2 ?_⟩
  intro hr
  induction hr with
  | owned b hb => have := none_left b; omega
  | member p b _ hm ih =>
    apply ih
    obtain ⟨h', e', I⟩ := run_inv ops _ _ inv_start ok
    apply Classical.byContradiction
    intro hp
    have := (I.fresh p (by omega)).2
    rw [this] at hm; cases hm

/-- Sum over the addresses `< n`. -/
def sumTo (n : Nat) (f : Nat → Nat) : Nat := ((List.range n).map f).sum

theorem intern_eq {c : Client} {h : Heap} (I : Inv c h) (a : Nat) :
    intern h a = sumTo c.next (fun p => match h.get p with | none => 0 | some _ => (c.kids p).count a) := by
  unfold intern sumTo
  congr 1
  apply List.ext_getElem?
  intro i
  simp only [List.getElem?_map]
  by_cases hi : i < c.next
  · have hi' : i < h.cells.length := by rw [I.len]; exact hi
    rw [List.getElem?_range hi]
    have hc : h.cells[i]? = some h.cells[i] := List.getElem?_eq_getElem hi'
    rw [hc]
    cases hx : h.cells[i] with
    | none =>
      have : h.get i = none := by unfold Heap.get; rw [hc, hx]; rfl
      simp [this, cellKids]
    | some o =>
      have hg : h.get i = some o := by rw [get_some, hc, hx]
      have h1 := I.pos i o hg
      have h2 := (I.shape i o hg).1
      simp [hg, cellKids, h1, h2]
  · have h1 : h.cells[i]? = none := by rw [List.getElem?_eq_none_iff, I.len]; omega
    have h2 : (List.range c.next)[i]? = none := by rw [List.getElem?_eq_none_iff]; simp; omega
    simp [h1, h2]

/-- **C04 (counts).** `opk_get_object_references` returns, for a live object, the number of
references owned by the client plus the number of times it is a member of a live object. -/
theorem references_exact (ops : List Op) (ok : Client.start.Correct ops) (h : Heap)
    (e : run empty ops = some h) (a : Nat) (ha : ¬ Released h a) :
    getReferences h (some a) = some ((Client.start.after ops).own a +
      sumTo (Client.start.after ops).next
        (fun p => match h.get p with | none => 0 | some _ => ((Client.start.after ops).kids p).count a)) := by
  obtain ⟨h', e', I⟩ := run_inv ops _ _ inv_start ok
  rw [e] at e'; cases e'
  cases hg : h.get a with
  | none => exact absurd hg ha
  | some o =>
    have h1 := I.counted a
    rw [rc_of_get hg, intern_eq I] at h1
    simp [getReferences, hg, h1]

/-- Non trivial history used as a witness: a vector space (0), two vectors (1, 2) owning a
reference on it, an optimizer (3) which holds the space and takes over the second vector; the
client then drops everything, the optimizer last. -/
def demo : List Op :=
  [.new 0, .new 1, .linkHold 1 0, .new 1, .linkHold 2 0, .new 3, .linkHold 3 0, .linkMove 3 2,
   .hold 1, .drop 0, .drop 1, .drop 1, .drop 3]

theorem demo_correct : Client.start.Correct demo := by
  have o : ∀ (c : Client) (a : Nat), 1 ≤ c.own a → Reach c a := fun c a => Reach.owned a
  refine ⟨trivial, trivial, ⟨o _ _ (by decide), o _ _ (by decide), by decide⟩, trivial,
    ⟨o _ _ (by decide), o _ _ (by decide), by decide⟩, trivial,
    ⟨o _ _ (by decide), o _ _ (by decide), by decide⟩,
    ⟨o _ _ (by decide), by decide, by decide⟩, o _ _ (by decide),
    ?_, ?_, ?_, ?_, trivial⟩ <;> (show 1 ≤ _) <;> decide

/-- The hypotheses of the theorems hold for `demo`, which releases the four objects: the first
vector, then the space and the second vector during the finalization of the optimizer. -/
example : Client.start.Correct demo ∧ (run empty demo).map (·.log) = some [1, 0, 2, 3] ∧
    (run empty (demo.take 8)).bind (fun h => getReferences h (some 0)) = some 4 :=
  ⟨demo_correct, by decide +kernel, by decide +kernel⟩

/-- Borrowed references: the space of a vector may be held although the client does not own
any reference on it any more. -/
example : Client.start.Correct [.new 0, .new 1, .linkMove 1 0, .hold 0] := by
  refine ⟨trivial, trivial, ⟨Reach.owned _ (by decide), by decide, by decide⟩, ?_, trivial⟩
  exact Reach.member 1 0 (Reach.owned _ (by decide)) (by decide)

/-! ## C52: `NULL` arguments -/

/-- **C52 (negation).** The documentation of `opk_hold_object` (`src/optimpack.h:435-451`)
says "if the argument is `NULL`, nothing is done", but `NULL` is dereferenced in every state. -/
theorem hold_null_undefined (h : Heap) : hold h none = none := rfl

/-- **C52 (partial).** Dropping `NULL` does nothing and `NULL` has no references. Missing:
holding `NULL`, which is refuted by `hold_null_undefined`. -/
theorem null_object_partial (h : Heap) :
    dropObject h none = some h ∧ getReferences h none = some 0 := ⟨rfl, rfl⟩

end Opk.Heap
