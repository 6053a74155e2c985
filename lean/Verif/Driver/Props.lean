import Verif.Driver.Resources
import Verif.Heap.Props
import Mathlib.Tactic.Linarith
/-!
# C32: the constructors of the optimizers are leak free
-/
set_option linter.unusedSectionVars false
set_option linter.unusedSimpArgs false
namespace Opk.Driver
open Opk.Heap

/-! ## Reasoning about programs -/

/-- Starting with the references of the client `c`, the program has a defined result which satisfies `Q` with the
new references; if memory is available the result satisfies `S`. -/
def Spec {α : Type} (m : M α) (c : Client) (Q : α → Client → Prop) (S : α → Prop) : Prop :=
  ∀ w, Inv c w.heap → ∃ a w' c', m w = some (a, w') ∧ Inv c' w'.heap ∧ Q a c' ∧ (w.oracle = [] → w'.oracle = [] ∧ S a)

/-- What is always true of the references of a client. -/
structure WF (c : Client) : Prop where
  fresh : ∀ a, c.next ≤ a → c.own a = 0 ∧ c.kids a = []
  low : ∀ p k, k ∈ c.kids p → k < c.next

theorem Inv.wf {c : Client} {h : Heap} (I : Inv c h) : WF c := ⟨I.fresh, I.low⟩

variable {α β : Type}

theorem Spec.wf {m : M α} {c : Client} {Q S} (h : WF c → Spec m c Q S) : Spec m c Q S :=
  fun w I => h (Inv.wf I) w I

theorem Spec.mono {m : M α} {c : Client} {Q Q' : α → Client → Prop} {S S' : α → Prop} (h : Spec m c Q S)
    (hq : ∀ a c', Q a c' → Q' a c') (hs : ∀ a c', Q a c' → S a → S' a) : Spec m c Q' S' := by
  intro w I
  obtain ⟨a, w', c', e, I', q, s⟩ := h w I
  exact ⟨a, w', c', e, I', hq _ _ q, fun ho => ⟨(s ho).1, hs _ _ q (s ho).2⟩⟩

theorem Spec.pure {a : α} {c : Client} {Q S} (hq : Q a c) (hs : S a) : Spec (Pure.pure a : M α) c Q S :=
  fun w I => ⟨a, w, c, rfl, I, hq, fun h => ⟨h, hs⟩⟩

theorem Spec.bind {m : M α} {k : α → M β} {c : Client} {Q : α → Client → Prop} {S : α → Prop} {R : β → Client → Prop}
    {T : β → Prop} (h : Spec m c Q S) (hk : ∀ a c', Q a c' → Spec (k a) c' R (fun b => S a → T b)) :
    Spec (m >>= k) c R T := by
  intro w I
  obtain ⟨a, w', c', e, I', q, s⟩ := h w I
  obtain ⟨b, w'', c'', e', I'', q', s'⟩ := hk a c' q w' I'
  refine ⟨b, w'', c'', ?_, I'', q', fun ho => ?_⟩
  · show M.bind m k w = _
    unfold M.bind
    rw [e]
    exact e'
  · obtain ⟨h1, h2⟩ := s ho
    obtain ⟨h3, h4⟩ := s' h1
    exact ⟨h3, h4 h2⟩

theorem spec_allocate (rank : Nat) (c : Client) : Spec (allocate rank) c
    (fun r c' => (r = none ∧ c' = c) ∨ (r = some c.next ∧ c' = c.call (.new rank))) (fun r => r.isSome) := by
  intro w I
  obtain ⟨h', e, I'⟩ := step_inv I (.new rank) trivial
  cases e
  have ha : (alloc w.heap rank).2 = c.next := I.len
  unfold allocate
  rcases ho : w.oracle with _ | ⟨b, l⟩
  · exact ⟨_, _, _, rfl, I', Or.inr ⟨by rw [ha], rfl⟩, fun _ => ⟨rfl, rfl⟩⟩
  · cases b
    · exact ⟨_, _, _, rfl, I, Or.inl ⟨rfl, rfl⟩, fun h => by cases h⟩
    · exact ⟨_, _, _, rfl, I', Or.inr ⟨by rw [ha], rfl⟩, fun h => by cases h⟩

theorem spec_op (op : Op) (c : Client) (ok : c.Allowed op) : Spec (lift fun h => step h op) c (fun _ c' => c' = c.call op) (fun _ => True) := by
  intro w I
  obtain ⟨h', e, I'⟩ := step_inv I op ok
  exact ⟨(), { w with heap := h' }, _, by simp [lift, e], I', rfl, fun h => ⟨h, trivial⟩⟩

theorem spec_release (a : Nat) (c : Client) (ok : 1 ≤ c.own a) :
    Spec (release (some a)) c (fun _ c' => c' = c.call (.drop a)) (fun _ => True) := spec_op (.drop a) c ok

theorem spec_keep (p k : Nat) (c : Client) (h1 : Reach c p) (h2 : Reach c k) (h3 : c.rank k < c.rank p) :
    Spec (keep p k) c (fun _ c' => c' = c.call (.linkHold p k)) (fun _ => True) := spec_op (.linkHold p k) c ⟨h1, h2, h3⟩

theorem spec_move (p k : Nat) (c : Client) (h1 : Reach c p) (h2 : 1 ≤ c.own k) (h3 : c.rank k < c.rank p) :
    Spec (move p k) c (fun _ c' => c' = c.call (.linkMove p k)) (fun _ => True) := spec_op (.linkMove p k) c ⟨h1, h2, h3⟩

/-! ## Frames -/

/-- Since `c0`, only new objects have been modified and new references have been obtained on the objects of the list. -/
structure Ext (c0 c : Client) (l : List Nat) : Prop where
  next : c0.next ≤ c.next
  own : ∀ a, c.own a = c0.own a + l.count a
  kids : ∀ p, p < c0.next → c.kids p = c0.kids p
  rank : ∀ p, p < c0.next → c.rank p = c0.rank p

theorem Ext.refl (c : Client) : Ext c c [] := ⟨le_rfl, by simp, fun _ _ => rfl, fun _ _ => rfl⟩

theorem Ext.trans {c0 c c' : Client} {l l' : List Nat} (h : Ext c0 c l) (h' : Ext c c' l') : Ext c0 c' (l ++ l') where
  next := le_trans h.next h'.next
  own a := by rw [h'.own, h.own, List.count_append]; omega
  kids p hp := by rw [h'.kids p (lt_of_lt_of_le hp h.next), h.kids p hp]
  rank p hp := by rw [h'.rank p (lt_of_lt_of_le hp h.next), h.rank p hp]

theorem reach_lt {c : Client} (w : WF c) {a : Nat} (h : Reach c a) : a < c.next := by
  rcases h with ⟨_, h⟩ | ⟨p, _, _, h⟩
  · by_contra hn
    have := (w.fresh a (not_lt.1 hn)).1
    omega
  · exact w.low p a h

theorem Ext.reach {c0 c : Client} {l : List Nat} (h : Ext c0 c l) (w : WF c0) {a : Nat} (hr : Reach c0 a) : Reach c a := by
  induction hr with
  | owned a ha => exact .owned a (by rw [h.own]; omega)
  | member p a hp ha ih => exact .member p a ih (by rw [h.kids p (reach_lt w hp)]; exact ha)

/-- The client holds one reference on the new object `p` of class `R`, and nothing else has changed. -/
structure Holds (c0 : Client) (p R : Nat) (c : Client) : Prop where
  ext : Ext c0 c [p]
  new : c0.next ≤ p
  lt : p < c.next
  rank : c.rank p = R

theorem Holds.reach {c0 c : Client} {p R : Nat} (h : Holds c0 p R c) : Reach c p :=
  .owned p (by rw [h.ext.own]; simp)

theorem Holds.step {c0 c c' : Client} {p R : Nat} (h : Holds c0 p R c) (e : Ext c c' []) : Holds c0 p R c' :=
  ⟨by simpa using h.ext.trans e, h.new, lt_of_lt_of_le h.lt e.next, by rw [e.rank p h.lt, h.rank]⟩

/-- Result of a constructor of objects of class `R`. -/
def Gives (c : Client) (R : Nat) (r : Option Nat) (c' : Client) : Prop :=
  match r with
  | none => Ext c c' []
  | some v => Holds c v R c'

theorem holds_new (c : Client) (w : WF c) (R : Nat) : Holds c c.next R (c.call (.new R)) where
  ext :=
    { next := Nat.le_succ _
      own := fun a => by
        show upd c.own c.next 1 a = _
        unfold upd
        split_ifs with h
        · subst h; rw [(w.fresh _ le_rfl).1]; simp
        · rw [List.count_singleton]; simp [Ne.symm h]
      kids := fun p hp => by show upd c.kids c.next [] p = _; unfold upd; rw [if_neg (by omega)]
      rank := fun p hp => by show upd c.rank c.next R p = _; unfold upd; rw [if_neg (by omega)] }
  new := le_rfl
  lt := Nat.lt_succ_self _
  rank := by show upd c.rank c.next R c.next = R; unfold upd; rw [if_pos rfl]

theorem spec_allocate' (R : Nat) (c : Client) :
    Spec (allocate R) c (fun r c' => Gives c R r c' ∧ ∀ v, r = some v → c'.kids v = []) (fun r => r.isSome) := by
  apply Spec.wf
  intro w
  refine (spec_allocate R c).mono ?_ (fun _ _ _ h => h)
  rintro r c' (⟨rfl, rfl⟩ | ⟨rfl, rfl⟩)
  · exact ⟨Ext.refl _, fun v h => by cases h⟩
  · refine ⟨holds_new c w R, fun v h => ?_⟩
    cases h
    show upd c.kids c.next [] c.next = []
    unfold upd; rw [if_pos rfl]

theorem holds_keep {c0 c : Client} {p R k : Nat} (h : Holds c0 p R c) : Holds c0 p R (c.call (.linkHold p k)) where
  ext :=
    { next := h.ext.next
      own := h.ext.own
      kids := fun q hq => by
        show upd c.kids p (c.kids p ++ [k]) q = _
        have := h.new
        unfold upd; rw [if_neg (by omega), h.ext.kids q hq]
      rank := h.ext.rank }
  new := h.new
  lt := h.lt
  rank := h.rank

/-- `p->member = OPK_HOLD(k)`. -/
theorem spec_keep' {c0 c : Client} {p R k : Nat} (h : Holds c0 p R c) (h2 : Reach c k) (h3 : c.rank k < R) :
    Spec (keep p k) c (fun _ c' => Holds c0 p R c' ∧ c'.kids p = c.kids p ++ [k] ∧ (∀ q, q ≠ p → c'.kids q = c.kids q) ∧
      c'.rank = c.rank) (fun _ => True) := by
  refine (spec_keep p k c h.reach h2 (by rw [h.rank]; exact h3)).mono ?_ (fun _ _ _ h => h)
  rintro _ c' rfl
  refine ⟨holds_keep h, ?_, fun q hq => ?_, rfl⟩
  · show upd c.kids p (c.kids p ++ [k]) p = _
    unfold upd; rw [if_pos rfl]
  · show upd c.kids p (c.kids p ++ [k]) q = _
    unfold upd; rw [if_neg hq]

/-- `p->member = k` for a new object. -/
theorem spec_move' {c0 c c1 : Client} {p R k rk : Nat} (h : Holds c0 p R c) (h2 : Holds c k rk c1) (h3 : rk < R) :
    Spec (move p k) c1 (fun _ c' => Holds c0 p R c' ∧ c'.kids p = c.kids p ++ [k] ∧ c'.rank = c1.rank ∧ c'.next = c1.next) (fun _ => True) := by
  have e : Ext c0 c1 ([p] ++ [k]) := h.ext.trans h2.ext
  have hkp : k ≠ p := by have := h2.new; have := h.lt; omega
  have hk1 : c1.own k = c.own k + 1 := by rw [h2.ext.own]; simp
  have hp1 : c1.own p = c.own p := by rw [h2.ext.own, List.count_singleton]; simp [hkp]
  have hp0 : 1 ≤ c.own p := by rw [h.ext.own]; simp
  refine (spec_move p k c1 (.owned p (by omega)) (by omega)
    (by rw [h2.rank, h2.ext.rank p h.lt, h.rank]; exact h3)).mono ?_ (fun _ _ _ h => h)
  rintro _ c' rfl
  refine ⟨⟨⟨e.next, fun a => ?_, fun q hq => ?_, e.rank⟩, h.new, ?_, ?_⟩, ?_, rfl, rfl⟩
  · show upd c1.own k (c1.own k - 1) a = _
    unfold upd
    split_ifs with ha
    · subst ha
      rw [e.own, List.count_append, List.count_singleton]; simp [hkp.symm]
    · rw [e.own, List.count_append, List.count_singleton, List.count_singleton]; simp [Ne.symm ha]
  · show upd c1.kids p (c1.kids p ++ [k]) q = _
    have := h.new
    unfold upd; rw [if_neg (by omega), e.kids q hq]
  · show p < c1.next
    exact lt_of_lt_of_le h.lt h2.ext.next
  · show c1.rank p = R
    rw [h2.ext.rank p h.lt, h.rank]
  · show upd c1.kids p (c1.kids p ++ [k]) p = _
    unfold upd; rw [if_pos rfl, h2.ext.kids p h.lt]

/-- `OPK_DROP(p)`. -/
theorem spec_release' {c0 c : Client} {p R : Nat} (h : Holds c0 p R c) :
    Spec (release (some p)) c (fun _ c' => Ext c0 c' [] ∧ c'.kids = c.kids ∧ c'.rank = c.rank) (fun _ => True) := by
  refine (spec_release p c (by rw [h.ext.own]; simp)).mono ?_ (fun _ _ _ h => h)
  rintro _ c' rfl
  refine ⟨⟨h.ext.next, fun a => ?_, h.ext.kids, h.ext.rank⟩, rfl, rfl⟩
  show upd c.own p (c.own p - 1) a = _
  unfold upd
  split_ifs with ha
  · subst ha; rw [h.ext.own]; simp
  · rw [h.ext.own, List.count_singleton]; simp [Ne.symm ha]

/-- A step of the construction of `p`. -/
def Step (c0 : Client) (p R : Nat) (m : M Bool) (T : Bool → Prop) : Prop :=
  ∀ c, Holds c0 p R c → Spec m c (fun _ c' => Holds c0 p R c' ∧ c.kids p ⊆ c'.kids p) T

/-- Objects which already existed. -/
def Old (c0 : Client) (k R : Nat) : Prop := Reach c0 k ∧ c0.rank k < R

theorem Old.at {c0 c : Client} {k R : Nat} {l} (w : WF c0) (h : Old c0 k R) (e : Ext c0 c l) : Reach c k ∧ c.rank k < R :=
  ⟨e.reach w h.1, by rw [e.rank k (reach_lt w h.1)]; exact h.2⟩

theorem Old.mono {c0 : Client} {k R R' : Nat} (h : Old c0 k R) (hr : R ≤ R') : Old c0 k R' := ⟨h.1, lt_of_lt_of_le h.2 hr⟩

theorem step_true {c0 : Client} {p R : Nat} : Step c0 p R (pure true) (fun b => b = true) :=
  fun _ h => Spec.pure ⟨h, fun _ h => h⟩ rfl

theorem step_and {c0 : Client} {p R : Nat} {a b : M Bool} (ha : Step c0 p R a (fun b => b = true))
    (hb : Step c0 p R b (fun b => b = true)) : Step c0 p R (a ;; b) (fun b => b = true) := by
  intro c h
  unfold andThen
  refine (ha c h).bind ?_
  rintro ok c' ⟨h', hs⟩
  cases ok
  · exact Spec.pure ⟨h', hs⟩ (fun h => by cases h)
  · exact (hb c' h').mono (fun _ _ q => ⟨q.1, fun _ hx => q.2 (hs hx)⟩) (fun _ _ _ s _ => s)

theorem step_keep {c0 : Client} (w : WF c0) {p R k : Nat} (hk : Old c0 k R) :
    Step c0 p R (do keep p k; pure true) (fun b => b = true) := by
  intro c h
  obtain ⟨h1, h2⟩ := hk.at w h.ext
  refine (spec_keep' h h1 h2).bind ?_
  rintro _ c' ⟨q1, q2, -⟩
  exact Spec.pure ⟨q1, by rw [q2]; exact List.subset_append_left _ _⟩ (fun _ => rfl)

theorem step_create {c0 : Client} {p R rk : Nat} (hr : rk < R) {m : M (Option Nat)} {S : Option Nat → Prop}
    (hm : ∀ c, Holds c0 p R c → Spec m c (Gives c rk) S) (hS : ∀ r, S r → r.isSome) :
    Step c0 p R (create p m) (fun b => b = true) := by
  intro c h
  unfold create
  refine (hm c h).bind ?_
  intro r c' q
  rcases r with _ | v
  · exact Spec.pure ⟨h.step q, by rw [Ext.kids q p h.lt]; exact fun _ h => h⟩ (fun h => by have := hS _ h; cases this)
  · refine (spec_move' h q hr).bind ?_
    rintro _ c'' ⟨q1, q2, -⟩
    exact Spec.pure ⟨q1, by rw [q2]; exact List.subset_append_left _ _⟩ (fun _ _ => rfl)

theorem step_if {c0 : Client} {p R : Nat} {a b : M Bool} {T : Bool → Prop} (P : Prop) [Decidable P] (ha : Step c0 p R a T) (hb : Step c0 p R b T) :
    Step c0 p R (if P then a else b) T := by split_ifs <;> assumption

/-- End of a constructor. -/
theorem spec_finish {c0 c : Client} {p R : Nat} {body : M Bool} {T : Bool → Prop} (hb : Step c0 p R body T) (h : Holds c0 p R c) :
    Spec (do
      let ok ← body
      if ok then pure (some p)
      else do
        release (some p)
        pure none) c (Gives c0 R) (fun r => ∃ ok, T ok ∧ (ok = true → r.isSome)) := by
  refine (hb c h).bind ?_
  rintro ok c' ⟨h', -⟩
  cases ok
  · refine (spec_release' h').bind ?_
    rintro _ c'' ⟨q, -⟩
    exact Spec.pure q (fun _ ht => ⟨false, ht, fun h => by cases h⟩)
  · exact Spec.pure h' (fun ht => ⟨true, ht, fun _ => rfl⟩)

/-! ## Constructors -/

theorem spec_newVector (c : Client) (space : Nat) (h : Old c space 1) :
    Spec (newVector space) c (fun r c' => Gives c 1 r c' ∧ ∀ v, r = some v → c'.kids v = [space]) (fun r => r.isSome) := by
  apply Spec.wf
  intro w
  unfold newVector
  refine (spec_allocate' 1 c).bind ?_
  rintro r c' ⟨q, qk⟩
  rcases r with _ | v
  · exact Spec.pure ⟨q, fun v h => by cases h⟩ (fun h => by cases h)
  · obtain ⟨h1, h2⟩ := h.at w (Holds.ext q)
    refine (spec_keep' q h1 h2).bind ?_
    rintro _ c'' ⟨p1, p2, -⟩
    refine Spec.pure ⟨p1, fun u hu => ?_⟩ (fun _ _ => rfl)
    cases hu
    rw [p2, qk v rfl]; rfl

theorem step_vector {c0 : Client} (w : WF c0) {p R space : Nat} (hr : 1 < R) (h : Old c0 space 1) :
    Step c0 p R (create p (newVector space)) (fun b => b = true) := by
  refine step_create hr (fun c hc => (spec_newVector c space ?_).mono (fun _ _ q => q.1) (fun _ _ _ s => s)) (fun _ h => h)
  exact h.at w hc.ext

theorem step_search {c0 : Client} (w : WF c0) {p : Nat} (ls : Option Nat) (h : ∀ k, ls = some k → Old c0 k 3) :
    Step c0 p 3 (setSearch p ls) (fun b => b = true) := by
  rcases ls with _ | k
  · exact step_create (rk := 0) (by norm_num) (fun c _ => (spec_allocate' 0 c).mono (fun _ _ q => q.1) (fun _ _ _ s => s)) (fun _ h => h)
  · exact step_keep w (h k rfl)

variable {F : Type} [LT F] [LE F] [DecidableLT F] [DecidableLE F] [Zero F] [One F]

theorem spec_newNlcg (finite : F → Bool) (opts : Nlcg.Options F) (c : Client) (space : Nat) (ls : Option Nat)
    (hs : Old c space 1) (hl : ∀ k, ls = some k → Old c k 3) :
    Spec (newNlcg finite opts space ls) c (Gives c 3)
      (fun r => r.isSome ↔ Nlcg.checkOptions finite opts = true ∧
        (Nlcg.select (if opts.flags = 0 then Nlcg.DEFAULT else opts.flags)).isSome) := by
  apply Spec.wf
  intro w
  unfold newNlcg
  by_cases hc : (!Nlcg.checkOptions finite opts) = true
  · rw [if_pos hc]
    exact Spec.pure (Ext.refl c) (by simp at hc; simp [hc])
  · rw [if_neg hc]
    simp only [Bool.not_eq_true', Bool.not_eq_false] at hc
    rcases hsel : Nlcg.select (if opts.flags = 0 then Nlcg.DEFAULT else opts.flags) with _ | ⟨rule, needed⟩
    · exact Spec.pure (Ext.refl c) (by simp)
    · refine (spec_allocate' 3 c).bind ?_
      rintro r c' ⟨q, -⟩
      rcases r with _ | o
      · exact Spec.pure q (fun h => by cases h)
      · obtain ⟨h1, h2⟩ := hs.at w (Holds.ext q)
        refine (spec_keep' q h1 (by omega)).bind ?_
        rintro _ c'' ⟨p1, -⟩
        have hv : Step c o 3 (create o (newVector space)) (fun b => b = true) := step_vector w (by norm_num) hs
        refine (spec_finish (step_and (step_search w ls hl) (step_and hv (step_and (step_if _ hv step_true)
          (step_and hv (step_if _ hv step_true))))) p1).mono (fun _ _ q => q) ?_
        rintro r c3 - ⟨ok, h1, h2⟩ - -
        simp [h2 h1, hc]

theorem step_pairs {c0 : Client} (w : WF c0) {p space : Nat} (hs : Old c0 space 1) (m : Nat) :
    Step c0 p 3 (createPairs p space m) (fun b => b = true) := by
  have hv : Step c0 p 3 (create p (newVector space)) (fun b => b = true) := step_vector w (by norm_num) hs
  induction m with
  | zero => exact step_true
  | succ m ih => exact step_and hv (step_and hv ih)

theorem spec_newVmlmb (finite : F → Bool) (opts : Vmlmb.Options F) (n : Int) (c : Client) (space : Nat) (ls box : Option Nat)
    (hs : Old c space 1) (hl : ∀ k, ls = some k → Old c k 3) (hb : ∀ k, box = some k → Old c k 3) :
    Spec (newVmlmb finite opts n space ls box) c (Gives c 3)
      (fun r => r.isSome ↔ Vmlmb.checkOptions finite opts = true ∧ 1 ≤ n) := by
  apply Spec.wf
  intro w
  unfold newVmlmb
  by_cases hc : (!Vmlmb.checkOptions finite opts) = true
  · rw [if_pos hc]
    exact Spec.pure (Ext.refl c) (by simp at hc; simp [hc])
  rw [if_neg hc]
  by_cases hn : n < 1 ∨ opts.mem < 1
  · rw [if_pos hn]
    refine Spec.pure (Ext.refl c) ?_
    simp only [Bool.not_eq_true', Bool.not_eq_false] at hc
    have : ¬ opts.mem < 1 := by
      unfold Vmlmb.checkOptions at hc
      rw [Bool.not_eq_true', decide_eq_false_iff_not] at hc
      simp only [not_or] at hc
      exact hc.2.2.2.2.2.2.2.2.2.2.2.2.2
    simp only [Option.isSome_none, Bool.false_eq_true, false_iff, not_and]
    intro _
    omega
  · rw [if_neg hn]
    simp only [Bool.not_eq_true', Bool.not_eq_false] at hc
    dsimp only
    refine (spec_allocate' 3 c).bind ?_
    rintro r c' ⟨q, -⟩
    rcases r with _ | o
    · exact Spec.pure q (fun h => by cases h)
    · have hv : Step c o 3 (create o (newVector space)) (fun b => b = true) := step_vector w (by norm_num) hs
      refine (spec_finish (step_and (step_if _ hv step_true) (step_and (step_pairs w hs _) (step_and (b := _)
        (step_keep w (hs.mono (by norm_num))) (step_and (step_search w ls hl) (step_and (step_if _ step_true (step_and hv hv))
        (step_and hv ?_)))))) q).mono (fun _ _ q => q) ?_
      · rcases box with _ | b
        · exact step_true
        · exact step_and (step_keep w (hb b rfl)) hv
      · rintro r c3 - ⟨ok, h1, h2⟩ -
        have : 1 ≤ n := by omega
        simp [h2 h1, hc, this]

/-! ## Boxes -/

/-- A valid bound: a vector is an existing object which belongs to a space. -/
def Bound.Ok (c : Client) (b : Bound) : Prop :=
  b.type = 7 → ∀ v, b.addr = some v → Old c v 2 ∧ c.kids v ≠ []

/-- The box accepts the bound. -/
def Bound.Fits (c : Client) (space : Nat) (b : Bound) : Prop :=
  0 ≤ b.type ∧ b.type ≤ 7 ∧ (b.type = 0 ↔ b.addr = none) ∧ (b.type = 7 → ∀ v, b.addr = some v → (c.kids v).head? = some space)

theorem spec_owner (c : Client) (v s : Nat) (l : List Nat) (h : Reach c v) (hk : c.kids v = s :: l) :
    Spec (owner v) c (fun r c' => r = s ∧ c' = c) (fun _ => True) := by
  intro w I
  obtain ⟨o, ho⟩ := I.live_of_reach h
  have := (I.shape v o ho).1
  rw [hk] at this
  refine ⟨s, w, c, ?_, I, ⟨rfl, rfl⟩, fun h => ⟨h, trivial⟩⟩
  unfold owner
  rw [ho]
  obtain ⟨r, k, t⟩ := o
  dsimp only at this
  subst this
  rfl

/-- Like `Step`, and tells when the result may be true. -/
theorem spec_setBound {c0 : Client} (w : WF c0) {p space : Nat} (hs : Old c0 space 1) (b : Bound) (hb : b.Ok c0) (c : Client) (h : Holds c0 p 2 c) :
    Spec (setBound space p b) c (fun ok c' => Holds c0 p 2 c' ∧ c.kids p ⊆ c'.kids p ∧ (ok = true → b.Fits c0 space))
      (fun ok => ok = true ↔ b.Fits c0 space) := by
  unfold setBound Bound.Fits
  split_ifs with t0 t1 t2 t7 tv ta
  · refine Spec.pure ⟨h, fun _ h => h, fun hk => ?_⟩ ?_ <;> simp_all
  · refine Spec.pure ⟨h, fun _ h => h, fun hk => ?_⟩ ?_ <;> rcases hb : b.addr with _ | v <;> simp_all
  · refine Spec.pure ⟨h, fun _ h => h, fun hk => ?_⟩ ?_ <;> rcases hb : b.addr with _ | v <;> simp_all
  · rcases ha : b.addr with _ | v
    · refine Spec.pure ⟨h, fun _ h => h, fun hk => by cases hk⟩ ?_
      simp_all
    · obtain ⟨o1, o2⟩ := hb t7 v ha
      obtain ⟨r1, r2⟩ := o1.at w h.ext
      rcases hk : c0.kids v with _ | ⟨s, l⟩
      · exact absurd hk o2
      · have hk' : c.kids v = s :: l := by rw [h.ext.kids v (reach_lt w o1.1), hk]
        refine (spec_owner c v s l r1 hk').bind ?_
        rintro s' c' ⟨e1, e2⟩
        subst e1 e2
        split_ifs with hne
        · refine Spec.pure ⟨h, fun _ h => h, fun hk => by cases hk⟩ (fun _ => ?_)
          simp only [Bool.false_eq_true, false_iff, not_and]
          intro _ _ _ h3
          have := h3 t7 v rfl
          rw [hk] at this
          simp at this
          exact hne this
        · have hss : space = s' := by simpa using Eq.symm (not_not.1 hne)
          subst hss
          have hfit : 0 ≤ b.type ∧ b.type ≤ 7 ∧ (b.type = 0 ↔ some v = none) ∧ (b.type = 7 → ∀ u, some v = some u → (c0.kids u).head? = some space) := by
            refine ⟨by omega, by omega, by simp [t0], fun _ u hu => ?_⟩
            cases hu; rw [hk]; rfl
          simp only [reduceCtorEq] at hfit
          refine (spec_keep' h r1 r2).bind ?_
          rintro _ c' ⟨q1, q2, -⟩
          refine Spec.pure ⟨q1, by rw [q2]; exact List.subset_append_left _ _, fun _ => hfit⟩ (fun _ _ => iff_of_true rfl hfit)
  · refine Spec.pure ⟨h, fun _ h => h, fun hk => by cases hk⟩ ?_
    simp_all
  · have hn : b.addr ≠ none := by intro h; simp [h] at ta
    have hfit : 0 ≤ b.type ∧ b.type ≤ 7 ∧ (b.type = 0 ↔ b.addr = none) ∧ (b.type = 7 → ∀ v, b.addr = some v → (c0.kids v).head? = some space) :=
      ⟨by omega, by omega, by simp [t0, hn], fun h => absurd h t7⟩
    refine ((step_vector w (R := 2) (by norm_num) hs) c h).mono (fun ok c' q => ⟨q.1, q.2, fun _ => hfit⟩) (fun ok c' _ s => iff_of_true s hfit)
  · refine Spec.pure ⟨h, fun _ h => h, fun hk => by cases hk⟩ ?_
    simp only [Bool.false_eq_true, false_iff, not_and]
    intro a b
    omega

theorem spec_newBox (c : Client) (space : Nat) (hs : Old c space 1) (lower upper : Bound) (hl : lower.Ok c) (hu : upper.Ok c) :
    Spec (newBox space lower upper) c
      (fun r c' => Gives c 2 r c' ∧ (r.isSome → lower.Fits c space ∧ upper.Fits c space))
      (fun r => r.isSome ↔ lower.Fits c space ∧ upper.Fits c space) := by
  apply Spec.wf
  intro w
  unfold newBox
  refine (spec_allocate' 2 c).bind ?_
  rintro r c' ⟨q, -⟩
  rcases r with _ | box
  · exact Spec.pure ⟨q, fun h => by cases h⟩ (fun h => by cases h)
  · obtain ⟨h1, h2⟩ := hs.at w (Holds.ext q)
    refine (spec_keep' q h1 (by omega)).bind ?_
    rintro _ c1 ⟨p1, -⟩
    have hb : Spec (setBound space box lower ;; setBound space box upper) c1
        (fun ok c' => Holds c box 2 c' ∧ (ok = true → lower.Fits c space ∧ upper.Fits c space))
        (fun ok => ok = true ↔ lower.Fits c space ∧ upper.Fits c space) := by
      unfold andThen
      refine (spec_setBound w hs lower hl c1 p1).bind ?_
      rintro ok c2 ⟨q1, -, q2⟩
      cases ok
      · refine Spec.pure ⟨q1, fun h => by cases h⟩ (fun h => ?_)
        constructor
        · intro h; cases h
        · intro h'; exact h.2 h'.1
      · refine (spec_setBound w hs upper hu c2 q1).mono (fun ok c3 q => ⟨q.1, fun h => ⟨q2 rfl, q.2.2 h⟩⟩) (fun ok c3 q s _ => ?_)
        rw [s]
        exact ⟨fun h => ⟨q2 rfl, h⟩, fun h => h.2⟩
    refine hb.bind ?_
    rintro ok c2 ⟨q1, q2⟩
    cases ok
    · refine (spec_release' q1).bind ?_
      rintro _ c3 ⟨q3, -⟩
      refine Spec.pure ⟨q3, fun h => by cases h⟩ (fun _ h _ _ => ?_)
      simpa using h
    · exact Spec.pure ⟨q1, fun _ => q2 rfl⟩ (fun h _ _ => by simpa using h)

end Opk.Driver
