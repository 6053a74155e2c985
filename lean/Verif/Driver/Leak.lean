import Verif.Driver.Props
/-!
# C32: `opk_new_optimizer` and `opk_destroy_optimizer` are leak free
-/
set_option linter.unusedSectionVars false
set_option linter.unusedSimpArgs false
namespace Opk.Driver
open Opk.Heap

theorem spec_drop {c0 c : Client} {l : List Nat} (a : Nat) (h : Ext c0 c l) (ha : a ∈ l) :
    Spec (release (some a)) c (fun _ c' => Ext c0 c' (l.erase a) ∧ c'.kids = c.kids ∧ c'.rank = c.rank ∧ c'.next = c.next) (fun _ => True) := by
  have hc : 1 ≤ l.count a := List.one_le_count_iff.2 ha
  refine (spec_release a c (by rw [h.own]; omega)).mono ?_ (fun _ _ _ h => h)
  rintro _ c' rfl
  refine ⟨⟨h.next, fun b => ?_, h.kids, h.rank⟩, rfl, rfl, rfl⟩
  show upd c.own a (c.own a - 1) b = _
  unfold upd
  split_ifs with hb
  · subst hb; rw [h.own, List.count_erase_self]; omega
  · rw [h.own, List.count_erase_of_ne hb]

/-- Result of `wrapBound`. -/
def Wrapped (c : Client) (space : Nat) (single : Bool) (b : Bound) (r : Option (Option Nat × Bound)) (c' : Client) : Prop :=
  match r with
  | none => Ext c c' []
  | some (none, b') => b' = b ∧ c' = c ∧ b.type ≠ (if single then 3 else 4)
  | some (some v, b') => b' = ⟨7, some v⟩ ∧ Holds c v 1 c' ∧ c'.kids v = [space] ∧ b.type = (if single then 3 else 4) ∧ b.addr ≠ none

theorem spec_wrapBound (c : Client) (space : Nat) (hs : Old c space 1) (single : Bool) (b : Bound) :
    Spec (wrapBound space single b) c (Wrapped c space single b) (fun r => (b.type = 0 ↔ b.addr = none) → r.isSome) := by
  unfold wrapBound
  by_cases ht : b.type = (if single then 3 else 4)
  · rw [if_pos ht]
    rcases hb : b.addr with _ | d
    · refine Spec.pure (Ext.refl c) (fun h => ?_)
      have := h.2 rfl
      rw [this] at ht
      split_ifs at ht <;> omega
    · refine (spec_newVector c space hs).bind ?_
      rintro r c' ⟨q1, q2⟩
      rcases r with _ | v
      · exact Spec.pure q1 (fun h => by cases h)
      · exact Spec.pure ⟨rfl, q1, q2 v rfl, ht, by simp [hb]⟩ (fun _ _ => rfl)
  · rw [if_neg ht]
    exact Spec.pure ⟨rfl, rfl, ht⟩ (fun _ => rfl)

theorem fits_ext {c c' : Client} {space : Nat} {l} (w : WF c) (e : Ext c c' l) (b : Bound) (hb : b.Ok c) :
    b.Fits c' space ↔ b.Fits c space := by
  unfold Bound.Fits
  have : (b.type = 7 → ∀ v, b.addr = some v → (c'.kids v).head? = some space) ↔
      (b.type = 7 → ∀ v, b.addr = some v → (c.kids v).head? = some space) := by
    constructor <;> intro h t v hv <;> have := h t v hv <;> rw [e.kids v (reach_lt w (hb t v hv).1.1)] at * <;> exact this
  rw [this]

theorem ok_ext {c c' : Client} {l} (w : WF c) (e : Ext c c' l) (b : Bound) (hb : b.Ok c) : b.Ok c' := by
  intro t v hv
  obtain ⟨h1, h2⟩ := hb t v hv
  exact ⟨h1.at w e, by rw [e.kids v (reach_lt w h1.1)]; exact h2⟩

theorem spec_releases {c0 c : Client} {l : List Nat} (a : Option Nat) (h : Ext c0 c l) (ha : ∀ v, a = some v → v ∈ l) :
    Spec (release a) c (fun _ c' => Ext c0 c' (match a with | none => l | some v => l.erase v) ∧ c'.kids = c.kids ∧ c'.rank = c.rank ∧ c'.next = c.next)
      (fun _ => True) := by
  rcases a with _ | v
  · intro w I
    exact ⟨(), w, c, rfl, I, ⟨h, rfl, rfl, rfl⟩, fun h => ⟨h, trivial⟩⟩
  · exact spec_drop v h (ha v rfl)

/-- The wrapped bound. -/
theorem wrapped_spec {c c' : Client} {space : Nat} {single : Bool} {b b' : Bound} {v : Option Nat} (w : WF c) (hb : b.Ok c)
    (h : Wrapped c space single b (some (v, b')) c') :
    Ext c c' v.toList ∧ b'.Ok c' ∧ (b'.Fits c' space ↔ b.Fits c space) ∧ (∀ u, v = some u → c.next ≤ u) := by
  rcases v with _ | v
  · obtain ⟨rfl, rfl, -⟩ := h
    exact ⟨Ext.refl _, hb, Iff.rfl, fun u h => by cases h⟩
  · obtain ⟨rfl, h1, h2, h3, h4⟩ := h
    refine ⟨h1.ext, ?_, ?_, fun u hu => by cases hu; exact h1.new⟩
    · intro _ u hu
      cases hu
      exact ⟨⟨h1.reach, by rw [h1.rank]; norm_num⟩, by rw [h2]; simp⟩
    · unfold Bound.Fits
      constructor
      · intro _
        refine ⟨?_, ?_, ?_, ?_⟩
        · rw [h3]; split_ifs <;> norm_num
        · rw [h3]; split_ifs <;> norm_num
        · simp [h4]; rw [h3]; split_ifs <;> norm_num
        · intro h; rw [h3] at h; split_ifs at h <;> omega
      · intro _
        refine ⟨by norm_num, by norm_num, by simp, fun _ u hu => ?_⟩
        cases hu; rw [h2]; rfl

theorem spec_driverBox (c : Client) (space : Nat) (hs : Old c space 1) (single : Bool) (lower upper : Bound) (hl : lower.Ok c) (hu : upper.Ok c) :
    Spec (driverBox space single lower upper) c
      (fun r c' => Gives c 2 r c' ∧ (r.isSome → lower.Fits c space ∧ upper.Fits c space))
      (fun r => (lower.type = 0 ↔ lower.addr = none) → (upper.type = 0 ↔ upper.addr = none) →
        (r.isSome ↔ lower.Fits c space ∧ upper.Fits c space)) := by
  apply Spec.wf
  intro w
  unfold driverBox
  refine (spec_wrapBound c space hs single lower).bind ?_
  intro r1 c1 q1
  rcases r1 with _ | ⟨lv, lower'⟩
  · refine Spec.pure ⟨q1, fun h => by cases h⟩ (fun h h1 => ?_)
    have := h h1; cases this
  obtain ⟨e1, o1, f1, n1⟩ := wrapped_spec w hl q1
  apply Spec.wf
  intro w1
  have hs1 := hs.at w e1
  dsimp only
  refine (spec_wrapBound c1 space hs1 single upper).bind ?_
  intro r2 c2 q2
  rcases r2 with _ | ⟨uv, upper'⟩
  · have e2 : Ext c c2 (lv.toList ++ []) := e1.trans q2
    refine (spec_releases lv e2 (fun v h => by simp [h])).bind ?_
    rintro _ c3 ⟨q3, -⟩
    refine Spec.pure ⟨?_, fun h => by cases h⟩ (fun _ h _ _ h2 => by have := h h2; cases this)
    rcases lv with _ | v
    · simpa [Gives] using q3
    · simpa [Gives] using q3
  obtain ⟨e2, o2, f2, n2⟩ := wrapped_spec w1 (ok_ext w e1 upper hu) q2
  have f2' := f2.trans (fits_ext w e1 upper hu)
  have hs2 := Old.at w1 (R := 1) hs1 e2
  have f1' := (fits_ext (space := space) w1 e2 lower' o1).trans f1
  dsimp only
  apply Spec.wf
  intro w2
  refine (spec_newBox c2 space hs2 lower' upper' (ok_ext w1 e2 _ o1) o2).bind ?_
  rintro r c3 ⟨q3, q4⟩
  rw [f1', f2'] at q4
  have hfin : ∃ l, Ext c c3 (lv.toList ++ uv.toList ++ l) ∧ (match r with | none => l = [] | some v => l = [v] ∧ c2.next ≤ v ∧ v < c3.next ∧ c3.rank v = 2) := by
    rcases r with _ | v
    · exact ⟨[], (e1.trans e2).trans q3, rfl⟩
    · exact ⟨[v], (e1.trans e2).trans (Holds.ext q3), rfl, q3.new, q3.lt, q3.rank⟩
  obtain ⟨l, e3, hl3⟩ := hfin
  refine (spec_releases lv e3 (fun v h => by simp [h])).bind ?_
  rintro _ c4 ⟨p1, p2, p3, p4⟩
  have e4 : Ext c c4 (uv.toList ++ l) := by
    rcases lv with _ | v
    · simpa using p1
    · simpa using p1
  refine (spec_releases uv e4 (fun v h => by simp [h])).bind ?_
  rintro _ c5 ⟨p5, p6, p7, p8⟩
  have e5 : Ext c c5 l := by
    rcases uv with _ | v
    · simpa using p5
    · simpa using p5
  refine Spec.pure ⟨?_, q4⟩ ?_
  · rcases r with _ | v
    · dsimp only at hl3; subst hl3; exact e5
    · obtain ⟨rfl, h1, h2, h3⟩ := hl3
      refine ⟨e5, ?_, ?_, ?_⟩
      · exact le_trans (le_trans e1.next e2.next) h1
      · rw [p8, p4]; exact h2
      · rw [p7, p3]; exact h3
  · intro _ _ h _ _ _ _
    rw [h, f1', f2']

theorem spec_create {c0 c : Client} {p R rk : Nat} (hr : rk < R) {m : M (Option Nat)} {S : Option Nat → Prop}
    (h : Holds c0 p R c) (hm : Spec m c (Gives c rk) S) :
    Spec (create p m) c (fun _ c' => Holds c0 p R c' ∧ c.kids p ⊆ c'.kids p ∧ c.next ≤ c'.next ∧ ∀ q, q < c.next → c'.rank q = c.rank q)
      (fun ok => ∃ r, S r ∧ (ok = true ↔ r.isSome)) := by
  unfold create
  refine hm.bind ?_
  intro r c' q
  rcases r with _ | v
  · exact Spec.pure ⟨h.step q, by rw [Ext.kids q p h.lt]; exact fun _ h => h, Ext.next q, Ext.rank q⟩ (fun h => ⟨none, h, by simp⟩)
  · refine (spec_move' h q hr).bind ?_
    rintro _ c'' ⟨q1, q2, q3, q4⟩
    refine Spec.pure ⟨q1, by rw [q2]; exact List.subset_append_left _ _, by rw [q4]; exact Ext.next (Holds.ext q), fun u hu => ?_⟩ (fun _ h => ⟨some v, h, by simp⟩)
    rw [q3, Ext.rank (Holds.ext q) u hu]

/-- State of the construction of the driver `o` with its space. -/
structure Build (c0 : Client) (o space : Nat) (c : Client) : Prop where
  holds : Holds c0 o 4 c
  member : space ∈ c.kids o
  rank : c.rank space = 0
  lt : space < c.next
  new : c0.next ≤ space

theorem Build.old {c0 c : Client} {o space : Nat} (h : Build c0 o space c) : Old c space 1 :=
  ⟨.member o space h.holds.reach h.member, by rw [h.rank]; norm_num⟩

theorem spec_build {c0 c : Client} {o space rk : Nat} (hr : rk < 4) {m : M (Option Nat)} {S : Option Nat → Prop}
    (h : Build c0 o space c) (hm : Spec m c (Gives c rk) S) :
    Spec (create o m) c (fun _ c' => Build c0 o space c') (fun ok => ∃ r, S r ∧ (ok = true ↔ r.isSome)) := by
  refine (spec_create hr h.holds hm).mono ?_ (fun _ _ _ h => h)
  rintro _ c' ⟨q1, q2, q4, q3⟩
  exact ⟨q1, q2 h.member, by rw [q3 _ h.lt, h.rank], lt_of_lt_of_le h.lt q4, h.new⟩

variable {F : Type} [LT F] [LE F] [DecidableLT F] [DecidableLE F] [Zero F] [One F]

/-- Specification: the options are valid for the algorithm. -/
def Algorithm.Valid (finite : F → Bool) : Algorithm F → Prop
  | .nlcg opts => Nlcg.checkOptions finite opts = true ∧ (Nlcg.select (if opts.flags = 0 then Nlcg.DEFAULT else opts.flags)).isSome
  | .vmlmb opts => Vmlmb.checkOptions finite opts = true
  | .illegal => False

/-- Specification: arguments with which an optimizer can be created (when memory is available): at least one variable of a known
type, bounds of a known type with a value if and only if they are set, no bounds for the conjugate gradient method, valid options,
and bounds which are *not* given as vectors. -/
def Args.Valid (finite : F → Bool) (a : Args F) : Prop :=
  1 ≤ a.n ∧ a.type ≠ none ∧ (0 ≤ a.lower.type ∧ a.lower.type < 7) ∧ (0 ≤ a.upper.type ∧ a.upper.type < 7) ∧
  (a.lower.type = 0 ↔ a.lower.addr = none) ∧ (a.upper.type = 0 ↔ a.upper.addr = none) ∧
  ((∃ opts, a.algorithm = .nlcg opts) → a.lower.type = 0 ∧ a.upper.type = 0) ∧ a.algorithm.Valid finite

/-- What the checks tell. -/
theorem accepted_spec (a : Args F) (h : accepted a = true) :
    1 ≤ a.n ∧ a.type ≠ none ∧ (0 ≤ a.lower.type ∧ a.lower.type ≤ 7) ∧ (0 ≤ a.upper.type ∧ a.upper.type ≤ 7) ∧
    (a.lower.type = 0 ↔ a.lower.addr = none) ∧ (a.upper.type = 0 ↔ a.upper.addr = none) ∧
    ((∃ opts, a.algorithm = .nlcg opts) → a.lower.type = 0 ∧ a.upper.type = 0) ∧ a.algorithm ≠ .illegal := by
  unfold accepted at h
  split_ifs at h with h1 h2 h3 h4
  have k4 : (a.lower.type = 0 ↔ a.lower.addr = none) ∧ (a.upper.type = 0 ↔ a.upper.addr = none) := by
    simp only [bne_iff_ne, ne_eq, not_or, not_not] at h4
    constructor
    · have := h4.1
      rw [← Option.isNone_iff_eq_none, ← this, beq_iff_eq]
    · have := h4.2
      rw [← Option.isNone_iff_eq_none, ← this, beq_iff_eq]
  refine ⟨by omega, fun h => by simp [h] at h2, by tauto, by tauto, k4.1, k4.2, ?_, ?_⟩
  · rintro ⟨opts, ho⟩
    rw [ho] at h
    simpa using h
  · intro ho
    rw [ho] at h
    cases h

theorem valid_accepted (finite : F → Bool) (a : Args F) (h : a.Valid finite) : accepted a = true := by
  obtain ⟨h1, h2, h3, h4, h5, h6, h7, h8⟩ := h
  unfold accepted
  rw [if_neg (by omega), if_neg (by simpa using h2), if_neg (by omega)]
  rw [if_neg]
  · rcases ha : a.algorithm with o | o | _
    · have := h7 ⟨o, ha⟩
      simp [this]
    · rfl
    · rw [ha] at h8; exact h8.elim
  · rintro (h | h)
    · rcases hb : a.lower.addr with _ | v <;> simp_all
    · rcases hb : a.upper.addr with _ | v <;> simp_all

/-- A bound given by the caller cannot belong to the new space. -/
theorem fits_iff {c0 c : Client} {o space : Nat} (w : WF c0) (h : Build c0 o space c) (b : Bound) (hb : b.Ok c0)
    (h0 : b.type = 0 ↔ b.addr = none) : b.Fits c space ↔ 0 ≤ b.type ∧ b.type < 7 := by
  constructor
  · rintro ⟨f1, f2, -, f4⟩
    refine ⟨f1, lt_of_le_of_ne f2 (fun t => ?_)⟩
    rcases ha : b.addr with _ | v
    · have := h0.2 ha; omega
    · have := f4 t v ha
      obtain ⟨o1, -⟩ := hb t v ha
      rw [h.holds.ext.kids v (reach_lt w o1.1)] at this
      have hm : space ∈ c0.kids v := List.mem_of_head? this
      have := w.low v space hm
      have := h.new
      omega
  · rintro ⟨f1, f2⟩
    exact ⟨f1, f2.le, h0, fun t => by omega⟩

theorem spec_driverOptimizer (finite : F → Bool) (a : Args F) (ha : accepted a = true) (single : Bool) {c0 c : Client} {o space : Nat} (w : WF c0)
    (h : Build c0 o space c) (hl : a.lower.Ok c0) (hu : a.upper.Ok c0) (hls : ∀ k, a.lnsrch = some k → Old c0 k 3) :
    Spec (driverOptimizer finite a single o space) c (fun ok c' => Build c0 o space c' ∧ (ok = true → a.lower.type ≠ 7 ∧ a.upper.type ≠ 7))
      (fun ok => ok = true ↔ a.Valid finite) := by
  obtain ⟨h1, h2, h3, h4, h5, h6, h7, h8⟩ := accepted_spec a ha
  have hls' : ∀ {c' : Client}, Build c0 o space c' → ∀ k, a.lnsrch = some k → Old c' k 3 :=
    fun hb k hk => (hls k hk).at w hb.holds.ext
  unfold driverOptimizer
  by_cases hb : a.lower.type ≠ 0 ∨ a.upper.type ≠ 0
  · rw [if_pos hb]
    refine (spec_driverBox c space h.old single a.lower a.upper (ok_ext w h.holds.ext _ hl) (ok_ext w h.holds.ext _ hu)).bind ?_
    rintro r c1 ⟨q1, q2⟩
    rw [fits_iff w h _ hl h5, fits_iff w h _ hu h6] at q2 ⊢
    rcases r with _ | box
    · refine Spec.pure ⟨?_, fun h => by cases h⟩ (fun hS => ?_)
      · exact ⟨h.holds.step q1, by rw [Ext.kids q1 o h.holds.lt]; exact h.member, by rw [Ext.rank q1 _ h.lt]; exact h.rank,
          lt_of_lt_of_le h.lt (Ext.next q1), h.new⟩
      · have := hS h5 h6
        constructor
        · intro h; cases h
        · intro hv
          have := this.2 ⟨hv.2.2.1, hv.2.2.2.1⟩
          cases this
    · obtain ⟨t1, t2⟩ := q2 rfl
      refine (spec_move' h.holds q1 (by norm_num)).bind ?_
      rintro _ c2 ⟨p1, p2, p3, p4⟩
      have hlt : c.next ≤ c1.next := Ext.next (Holds.ext q1)
      have hB : Build c0 o space c2 := ⟨p1, by rw [p2]; exact List.mem_append_left _ h.member,
        by rw [p3, Ext.rank (Holds.ext q1) _ h.lt]; exact h.rank, by rw [p4]; exact lt_of_lt_of_le h.lt hlt, h.new⟩
      rcases hA : a.algorithm with opts | opts | _
      · exfalso
        have := h7 ⟨opts, hA⟩
        omega
      · have hbox : ∀ k, some box = some k → Old c2 k 3 := by
          intro k hk
          cases hk
          exact ⟨.member o box p1.reach (by rw [p2]; simp), by rw [p3, q1.rank]; norm_num⟩
        refine (spec_build (by norm_num) hB (spec_newVmlmb finite opts a.n c2 space a.lnsrch (some box) hB.old (hls' hB) hbox)).mono ?_ ?_
        · exact fun ok c' q => ⟨q, fun _ => ⟨by omega, by omega⟩⟩
        · rintro ok c' - ⟨r, hr, ho⟩ - -
          rw [ho, hr]
          unfold Args.Valid
          rw [hA]
          unfold Algorithm.Valid
          constructor
          · rintro ⟨k1, -⟩
            refine ⟨h1, h2, t1, t2, h5, h6, ?_, k1⟩
            rintro ⟨x, hx⟩; cases hx
          · intro k
            exact ⟨k.2.2.2.2.2.2.2, h1⟩
      · exact absurd hA h8
  · rw [if_neg hb]
    push Not at hb
    rcases hA : a.algorithm with opts | opts | _
    · refine (spec_build (by norm_num) h (spec_newNlcg finite opts c space a.lnsrch h.old (hls' h))).mono ?_ ?_
      · exact fun ok c' q => ⟨q, fun _ => ⟨by omega, by omega⟩⟩
      · rintro ok c' - ⟨r, hr, ho⟩
        rw [ho, hr]
        unfold Args.Valid
        rw [hA]
        unfold Algorithm.Valid
        constructor
        · intro k
          exact ⟨h1, h2, by omega, by omega, h5, h6, fun _ => hb, k⟩
        · intro k
          exact k.2.2.2.2.2.2.2
    · refine (spec_build (by norm_num) h (spec_newVmlmb finite opts a.n c space a.lnsrch none h.old (hls' h) (fun k h => by cases h))).mono ?_ ?_
      · exact fun ok c' q => ⟨q, fun _ => ⟨by omega, by omega⟩⟩
      · rintro ok c' - ⟨r, hr, ho⟩
        rw [ho, hr]
        unfold Args.Valid
        rw [hA]
        unfold Algorithm.Valid
        constructor
        · rintro ⟨k, -⟩
          exact ⟨h1, h2, by omega, by omega, h5, h6, fun _ => hb, k⟩
        · intro k
          exact ⟨k.2.2.2.2.2.2.2, h1⟩
    · exact absurd hA h8

/-- After the allocation of the driver. -/
theorem spec_rest (finite : F → Bool) (a : Args F) (ha : accepted a = true) {c0 c : Client} {o : Nat} (w : WF c0) (h : Holds c0 o 4 c) (hk : c.kids o = [])
    (hl : a.lower.Ok c0) (hu : a.upper.Ok c0) (hls : ∀ k, a.lnsrch = some k → Old c0 k 3) :
    Spec (do
      let ok ← (do
        match ← newSpace a.n with
        | none => pure false
        | some space => do
          move o space
          let x ← create o (newVector space)
          let g ← create o (newVector space)
          if x ∧ g then driverOptimizer finite a (a.type == some true) o space
          else pure false)
      if ok then pure (some o)
      else do
        release (some o)
        pure none) c (fun r c' => Gives c0 4 r c' ∧ (∀ p, r = some p → p = o) ∧ (r.isSome → a.lower.type ≠ 7 ∧ a.upper.type ≠ 7))
      (fun r => r.isSome ↔ a.Valid finite) := by
  have hb : Spec (do
        match ← newSpace a.n with
        | none => pure false
        | some space => do
          move o space
          let x ← create o (newVector space)
          let g ← create o (newVector space)
          if x ∧ g then driverOptimizer finite a (a.type == some true) o space
          else pure false) c (fun ok c' => Holds c0 o 4 c' ∧ (ok = true → a.lower.type ≠ 7 ∧ a.upper.type ≠ 7))
        (fun ok => ok = true ↔ a.Valid finite) := by
    have hn := (accepted_spec a ha).1
    unfold newSpace
    rw [if_neg (by omega)]
    refine (spec_allocate' 0 c).bind ?_
    rintro r c1 ⟨q, -⟩
    rcases r with _ | space
    · exact Spec.pure ⟨h.step q, fun h => by cases h⟩ (fun h => by cases h)
    · refine (spec_move' h q (by norm_num)).bind ?_
      rintro _ c2 ⟨p1, p2, p3, p4⟩
      have hB : Build c0 o space c2 := ⟨p1, by rw [p2]; simp, by rw [p3]; exact q.rank, by rw [p4]; exact q.lt,
        le_trans h.ext.next q.new⟩
      have hvec : ∀ {c' : Client}, Build c0 o space c' → Spec (create o (newVector space)) c' (fun _ c' => Build c0 o space c') (fun ok => ok = true) :=
        fun hb => (spec_build (by norm_num) hb ((spec_newVector _ space hb.old).mono (fun _ _ q => q.1) (fun _ _ _ s => s))).mono
          (fun _ _ q => q) (fun ok _ _ ⟨r, h1, h2⟩ => h2.2 h1)
      refine (hvec hB).bind ?_
      intro x c3 hB3
      refine (hvec hB3).bind ?_
      intro g c4 hB4
      by_cases hxg : (x = true ∧ g = true)
      · rw [if_pos hxg]
        exact (spec_driverOptimizer finite a ha _ w hB4 hl hu hls).mono (fun ok c' q => ⟨q.1.holds, q.2⟩) (fun _ _ _ s _ _ _ _ => s)
      · rw [if_neg hxg]
        exact Spec.pure ⟨hB4.holds, fun h => by cases h⟩ (fun h1 h2 _ _ => absurd ⟨h2, h1⟩ hxg)
  refine hb.bind ?_
  rintro ok c' ⟨h', ht⟩
  cases ok
  · refine (spec_release' h').bind ?_
    rintro _ c'' ⟨q, -⟩
    refine Spec.pure ⟨q, fun p h => (by cases h), fun h => (by cases h)⟩ (fun _ hS => ?_)
    simpa using hS
  · refine Spec.pure ⟨h', fun p hp => by cases hp; rfl, fun _ => ht rfl⟩ (fun hS => ?_)
    simpa using hS

/-! ## Conclusions on the heap -/

/-- Specification: all the objects of the first heap are in the same state in the second one and no other one is left. -/
def Restored (h h' : Heap) : Prop := ∀ a, h'.get a = h.get a

theorem sumTo_eq (n m : Nat) (hnm : n ≤ m) (f g : Nat → Nat) (h1 : ∀ p, p < n → f p = g p) (h2 : ∀ p, n ≤ p → f p = 0) :
    sumTo m f = sumTo n g := by
  obtain ⟨d, rfl⟩ := Nat.exists_eq_add_of_le hnm
  unfold sumTo
  rw [List.range_add, List.map_append, List.sum_append]
  have e1 : (List.range n).map f = (List.range n).map g := by
    apply List.map_congr_left
    intro p hp
    exact h1 p (List.mem_range.1 hp)
  have e2 : ((List.map (fun x => n + x) (List.range d)).map f).sum = 0 := by
    clear e1
    generalize List.range d = l
    induction l with
    | nil => rfl
    | cons y l ih =>
      rw [List.map_cons, List.map_cons, List.sum_cons, ih, h2 _ (by omega)]
  rw [e1, e2]
  omega

/-- With the same references, the heap is the same. -/
theorem restored {c0 c : Client} {h0 h : Heap} (I0 : Inv c0 h0) (I : Inv c h) (e : Ext c0 c []) : Restored h0 h := by
  have w := Inv.wf I0
  have hold : ∀ a, Reach c a → a < c0.next ∧ Reach c0 a := by
    intro a ha
    induction ha with
    | owned a ha =>
      have h1 : 1 ≤ c0.own a := by have := e.own a; simp at this; omega
      exact ⟨reach_lt w (.owned a h1), .owned a h1⟩
    | member p a _ hm ih =>
      rw [e.kids p ih.1] at hm
      exact ⟨w.low p a hm, .member p a ih.2 hm⟩
  have hlive : ∀ a, (∃ o, h.get a = some o) ↔ ∃ o, h0.get a = some o := by
    intro a
    constructor
    · rintro ⟨o, ho⟩
      exact I0.live_of_reach (hold a (I.reach_of_live ho)).2
    · rintro ⟨o, ho⟩
      exact I.live_of_reach (e.reach w (I0.reach_of_live ho))
  intro a
  rcases hg : h.get a with _ | o
  · rcases hg0 : h0.get a with _ | o0
    · rfl
    · obtain ⟨o, ho⟩ := (hlive a).2 ⟨o0, hg0⟩
      rw [hg] at ho; cases ho
  · obtain ⟨o0, hg0⟩ := (hlive a).1 ⟨o, hg⟩
    rw [hg0]
    have hlt := (hold a (I.reach_of_live hg)).1
    obtain ⟨k1, k2⟩ := I.shape a o hg
    obtain ⟨k3, k4⟩ := I0.shape a o0 hg0
    have c1 := I.counted a
    have c2 := I0.counted a
    rw [rc_of_get hg, intern_eq I] at c1
    rw [rc_of_get hg0, intern_eq I0] at c2
    have hsum : sumTo c.next (fun p => match h.get p with | none => 0 | some _ => (c.kids p).count a) =
        sumTo c0.next (fun p => match h0.get p with | none => 0 | some _ => (c0.kids p).count a) := by
      apply sumTo_eq _ _ e.next
      · intro p hp
        rw [e.kids p hp]
        rcases hgp : h.get p with _ | q
        · rcases hgp0 : h0.get p with _ | q0
          · rfl
          · obtain ⟨o, ho⟩ := (hlive p).2 ⟨q0, hgp0⟩
            rw [hgp] at ho; cases ho
        · obtain ⟨q0, hgp0⟩ := (hlive p).1 ⟨q, hgp⟩
          rw [hgp0]
      · intro p hp
        rcases hgp : h.get p with _ | q
        · rfl
        · have := (hold p (I.reach_of_live hgp)).1
          omega
    have hown := e.own a
    simp at hown
    have hrefs : o.refs = o0.refs := by rw [c1, c2, hown]; exact congrArg _ hsum
    have hkids : o.kids = o0.kids := by rw [k1, k3, e.kids a hlt]
    have hrank : o.rank = o0.rank := by rw [k2, k4, e.rank a hlt]
    obtain ⟨r1, r2, r3⟩ := o
    obtain ⟨s1, s2, s3⟩ := o0
    simp only at hrefs hkids hrank
    subst hrefs hkids hrank
    rfl

/-- The allocation of the driver succeeds. -/
def FirstOk (w : World) : Prop := w.oracle.head? ≠ some false

/-- **C32 (resources), partial.** For any client which respects the rules of reference counting, and any arguments, `opk_new_optimizer` has a
defined behaviour provided its first allocation succeeds; whatever the other allocations which fail:
either `NULL` is returned and all the objects created in between have been released, the other ones being as before;
or an optimizer is returned and destroying it releases all the objects created by the call.
If memory is available, an optimizer is returned if and only if the arguments are valid.
Missing: a failure of the first allocation, see `first_allocation_undefined`. -/
theorem new_optimizer_leak_free_partial (finite : F → Bool) (a : Args F) (c : Client) (w : World) (I : Inv c w.heap)
    (hl : a.lower.Ok c) (hu : a.upper.Ok c) (hls : ∀ k, a.lnsrch = some k → Old c k 3) (hw : FirstOk w) :
    ∃ r w' c', newOptimizer finite a w = some (r, w') ∧ Inv c' w'.heap ∧
      (r = none → Restored w.heap w'.heap) ∧
      (∀ o, r = some o → Released w.heap o ∧ ¬ Released w'.heap o ∧ c'.own o = 1 ∧
        ∃ w'', destroyOptimizer (some o) w' = some ((), w'') ∧ Restored w.heap w''.heap) ∧
      (r.isSome → a.lower.type ≠ 7 ∧ a.upper.type ≠ 7) ∧
      (w.oracle = [] → (r.isSome ↔ a.Valid finite)) := by
  have wf := Inv.wf I
  unfold newOptimizer
  by_cases ha : accepted a = true
  · rw [ha]
    simp only [Bool.not_true, Bool.false_eq_true, if_false]
    obtain ⟨r0, w0, c0, e0, I0, q0, s0⟩ := spec_allocate' 4 c w I
    rcases r0 with _ | o
    · exfalso
      unfold allocate at e0
      unfold FirstOk at hw
      rcases ho : w.oracle with _ | ⟨b, l⟩
      · rw [ho] at e0; simp at e0
      · rw [ho] at e0 hw
        cases b
        · exact hw rfl
        · simp at e0
    · obtain ⟨q1, q2⟩ := q0
      obtain ⟨r, w', c', e', I', ⟨q3, q4, q5⟩, s'⟩ := spec_rest finite a ha wf q1 (q2 o rfl) hl hu hls w0 I0
      refine ⟨r, w', c', ?_, I', ?_, ?_, q5, ?_⟩
      · show M.bind _ _ w = _
        unfold M.bind
        rw [e0]
        exact e'
      · rintro rfl
        exact restored I I' q3
      · rintro p rfl
        have hH : Holds c p 4 c' := q3
        obtain ⟨u, w'', c'', e'', I'', ⟨q6, -⟩, -⟩ := spec_release' hH w' I'
        have hnew : Released w.heap p := by
          unfold Released
          rcases hg : w.heap.get p with _ | ob
          · rfl
          · have := reach_lt wf (I.reach_of_live hg)
            have := hH.new
            omega
        refine ⟨hnew, ?_, ?_, w'', e'', restored I I'' q6⟩
        · obtain ⟨ob, hob⟩ := I'.live_of_reach hH.reach
          unfold Released
          rw [hob]; simp
        · rw [hH.ext.own, (wf.fresh p hH.new).1]; simp
      · intro ho
        exact (s' (s0 ho).1).2
  · rw [Bool.not_eq_true] at ha
    rw [ha]
    refine ⟨none, w, c, rfl, I, fun _ a => rfl, fun o h => (by cases h), fun h => (by cases h), fun _ => ?_⟩
    constructor
    · intro h; cases h
    · intro hv
      have := valid_accepted finite a hv
      rw [ha] at this; cases this

/-- **C32, negation.** If the allocation of the optimizer fails, a `NULL` pointer is dereferenced by `opk_new_optimizer` instead of
returning `NULL`. -/
theorem first_allocation_undefined (finite : F → Bool) (a : Args F) (ha : accepted a = true) (w : World) (l : List Bool)
    (hw : w.oracle = false :: l) : newOptimizer finite a w = none := by
  unfold newOptimizer
  rw [ha]
  show M.bind _ _ w = none
  unfold M.bind allocate
  rw [hw]

/-- **C32 (resources).** Whatever a correct client does after the creation, and then when it destroys the optimizer, an object
is alive if and only if the client can still reach it. -/
theorem destroyed_later (c : Client) (h : Heap) (I : Inv c h) (ops : List Op) (ok : c.Correct ops) (o : Nat)
    (ho : 1 ≤ (c.after ops).own o) :
    ∃ h1 h2, run h ops = some h1 ∧ dropObject h1 (some o) = some h2 ∧
      ∀ a, ¬ Released h2 a ↔ Reach ((c.after ops).call (.drop o)) a := by
  obtain ⟨h1, e1, I1⟩ := run_inv ops c h I ok
  obtain ⟨h2, e2, I2⟩ := step_inv I1 (.drop o) ho
  refine ⟨h1, h2, e1, e2, fun a => ?_⟩
  constructor
  · intro hn
    unfold Released at hn
    rcases hg : h2.get a with _ | ob
    · exact absurd hg hn
    · exact I2.reach_of_live hg
  · intro hr
    obtain ⟨ob, hob⟩ := I2.live_of_reach hr
    unfold Released
    rw [hob]; simp

end Opk.Driver
