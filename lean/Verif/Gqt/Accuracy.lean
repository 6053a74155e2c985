import Verif.Gqt.Exact
/-!
# Accuracy of the trust region step: the iterations

The invariant of the iterations of `gqt` in exact arithmetic and what it implies on exit.
-/
set_option linter.unusedSectionVars false
set_option linter.unusedSimpArgs false
set_option linter.unusedTactic false
namespace Opk.Gqt
open Linalg CMath Finset

section
variable {K : Type} [Field K] [LinearOrder K] [IsStrictOrderedRing K] [CMath K] [ExactMath K]
variable {g : Args K} {n : Nat}

/-- The bound of Gershgorin on the smallest eigenvalue is at least `|b|/delta`. -/
def Convex (g : Args K) (n : Nat) (mem0 : Mem K) : Prop :=
  ∃ bn : K, 0 ≤ bn ∧ bn * bn = sq n (at1 mem0 g.b) ∧ ∀ v, bn / g.delta * sq n v ≤ quad (mat g mem0) n v

theorem start_x (L : Layout g n) (mem : Mem K) : ∀ k < n, at1 (start g mem).mem g.x k = 0 := by
  intro k hk
  have hl := L.lead
  have hsz := L.size
  have hx : vec g.x n (g.x + k) := ⟨k, hk, rfl⟩
  let m1 := forUp 1 (g.n + 1) 1 (fun j mem => put (put mem (g.x + (j - 1)) 0) (g.z + (j - 1)) 0) mem
  have h1 : ∀ k < n, m1 (g.x + k) = 0 := by
    show ∀ k < n, forUp 1 (g.n + 1) 1 (fun j mem => put (put mem (g.x + (j - 1)) 0) (g.z + (j - 1)) 0) mem (g.x + k) = 0
    rw [forUp_nat]
    have key := loop_inv (f := fun (k : Nat) (mem : Mem K) => put (put mem (g.x + ((1 + k : Int) - 1)) 0) (g.z + ((1 + k : Int) - 1)) 0) (s := mem)
      (fun (c : Nat) (m : Mem K) => ∀ k < c, m (g.x + k) = 0) (g.n + 1 - 1).toNat (fun k hk => absurd hk (by omega)) (by
        intro c hc m hm k hk
        unfold put
        split
        · rfl
        split
        · rfl
        · exact hm k (by omega))
    exact fun k hk => key k (by omega)
  let m2 := copy g.n g.a (g.lda + 1) g.wa1 1 m1
  let m3 := saveUpper g.n g.a g.lda m2
  have e : (start g mem).mem = (rowSums g m3).2 := rfl
  unfold at1
  rw [e]
  have h4 : (rowSums g m3).2 (g.x + k) = m3 (g.x + k) := by
    unfold rowSums
    rw [forUp_nat]
    refine (loop_inv (fun _ (st : K × Mem K) => st.2 (g.x + k) = m3 (g.x + k)) _ rfl ?_)
    intro i hi st hst
    dsimp only
    rw [put_other _ _ fun h => L.x2 _ hx ⟨i, by omega, by omega⟩, hst]
  have h3 : m3 (g.x + k) = m2 (g.x + k) := by
    show saveUpper g.n g.a g.lda m2 _ = _
    rw [hsz]
    apply (saveUpper_spec g.a hl m2).2
    intro i j hij hj h
    exact L.ax j i hj (by omega) (h ▸ hx)
  have h2 : m2 (g.x + k) = m1 (g.x + k) := copy_vec _ _ _ _ _ (by omega) (L.x1 _ hx)
  rw [h4, h3, h2, h1 k hk]

/-- The matrix and the row sums after the initialization. -/
theorem rowSums_spec (L : Layout g n) (m : Mem K) : ∀ j < n, (rowSums g m).2 (g.wa2 + j) = ∑ i ∈ range n, |m (elem g.a g.lda i j)| - |m (g.wa1 + j)| := by
  have hsz := L.size
  unfold rowSums
  rw [forUp_nat]
  have key := loop_inv (f := fun (k : Nat) (st : K × Mem K) => (if st.1 < asum g.n (at2 g.a g.lda 1 (1 + k)) 1 st.2 then asum g.n (at2 g.a g.lda 1 (1 + k)) 1 st.2 else st.1,
      put st.2 (g.wa2 + ((1 + k : Int) - 1)) (asum g.n (at2 g.a g.lda 1 (1 + k)) 1 st.2 - fabs (st.2 (g.wa1 + ((1 + k : Int) - 1)))))) (s := ((0 : K), m))
    (fun (c : Nat) (st : K × Mem K) => (∀ j < c, st.2 (g.wa2 + j) = ∑ i ∈ range n, |m (elem g.a g.lda i j)| - |m (g.wa1 + j)|) ∧ ∀ p, ¬vec g.wa2 n p → st.2 p = m p)
    (g.n + 1 - 1).toNat ⟨fun j h => absurd h (by omega), fun _ _ => rfl⟩ (by
      intro c hc st ⟨h1, h2⟩
      dsimp only
      refine ⟨fun j hj => ?_, fun p hp => ?_⟩
      · rw [show g.wa2 + ((1 + c : Int) - 1) = g.wa2 + c by ring, show g.wa1 + ((1 + c : Int) - 1) = g.wa1 + c by ring]
        rcases Nat.lt_or_ge j c with hlt | hge
        · rw [put_other _ _ (by omega), h1 j hlt]
        · obtain rfl : j = c := by omega
          rw [put_same, ExactMath.fabs_eq, asum_spec le_rfl, hsz, Int.toNat_natCast, h2 _ (L.w12 _ ⟨j, by omega, rfl⟩)]
          congr 1
          refine sum_congr rfl fun i hi => ?_
          rw [at2_elem _ _ 0 j (by norm_num) (by ring), slot_one]
          have e : elem g.a g.lda 0 j + (i : Int) = elem g.a g.lda i j := by unfold elem; push_cast; ring
          rw [e, h2 _ (L.a2 i j (mem_range.1 hi) (by omega))]
      · rw [put_other _ _ fun h => hp ⟨c, by omega, by omega⟩, h2 p hp])
  exact fun j hj => key.1 j (by omega)

theorem updateMax_left (u v : K) : u ≤ updateMax u v := by
  unfold updateMax
  split
  · rename_i h; exact le_of_lt h
  · exact le_rfl

theorem updateMax_right (u v : K) : v ≤ updateMax u v := by
  unfold updateMax
  split
  · exact le_rfl
  · rename_i h; exact not_lt.1 h

theorem updateMax_neg {u v : K} (hu : u < 0) (hv : v < 0) : updateMax u v < 0 := by
  unfold updateMax
  split
  · exact hv
  · exact hu

theorem bounds_spec (L : Layout g n) (anorm : K) (m : Mem K) :
    (∀ j < n, m (g.wa2 + j) + m (g.wa1 + j) ≤ (bounds g anorm m).2.1 ∧ m (g.wa2 + j) - m (g.wa1 + j) ≤ (bounds g anorm m).2.2) ∧
    (0 < anorm → (∀ j < n, 0 < m (g.wa1 + j)) → (bounds g anorm m).1 < 0) := by
  have hsz := L.size
  unfold bounds
  rw [forUp_nat]
  have key := loop_inv (f := fun (k : Nat) (st : K × K × K) => (updateMax st.1 (-m (g.wa1 + ((1 + k : Int) - 1))), updateMax st.2.1 (m (g.wa2 + ((1 + k : Int) - 1)) + m (g.wa1 + ((1 + k : Int) - 1))),
      updateMax st.2.2 (m (g.wa2 + ((1 + k : Int) - 1)) - m (g.wa1 + ((1 + k : Int) - 1))))) (s := (-anorm, -anorm, -anorm))
    (fun (c : Nat) (st : K × K × K) => (∀ j < c, m (g.wa2 + j) + m (g.wa1 + j) ≤ st.2.1 ∧ m (g.wa2 + j) - m (g.wa1 + j) ≤ st.2.2) ∧
      (0 < anorm → (∀ j < n, 0 < m (g.wa1 + j)) → st.1 < 0)) (g.n + 1 - 1).toNat
    ⟨fun j h => absurd h (by omega), fun h _ => by dsimp only; linarith⟩ (by
      intro c hc st ⟨h, h'⟩
      dsimp only
      rw [show g.wa2 + ((1 + c : Int) - 1) = g.wa2 + c by ring, show g.wa1 + ((1 + c : Int) - 1) = g.wa1 + c by ring]
      refine ⟨fun j hj => ?_, fun ha hd => updateMax_neg (h' ha hd) (by have := hd c (by omega); linarith)⟩
      rcases Nat.lt_or_ge j c with hlt | hge
      · exact ⟨(h j hlt).1.trans (updateMax_left _ _), (h j hlt).2.trans (updateMax_left _ _)⟩
      · obtain rfl : j = c := by omega
        exact ⟨updateMax_right _ _, updateMax_right _ _⟩)
  exact ⟨fun j hj => key.1 j (by omega), key.2⟩

/-- The norm of the matrix is positive if an element is not zero. -/
theorem rowSums_norm (L : Layout g n) (m : Mem K) : 0 ≤ (rowSums g m).1 ∧ (m (elem g.a g.lda 0 0) ≠ 0 → 0 < (rowSums g m).1) := by
  have hsz := L.size
  have hn := L.pos
  unfold rowSums
  rw [forUp_nat]
  have key := loop_inv (f := fun (k : Nat) (st : K × Mem K) => (if st.1 < asum g.n (at2 g.a g.lda 1 (1 + k)) 1 st.2 then asum g.n (at2 g.a g.lda 1 (1 + k)) 1 st.2 else st.1,
      put st.2 (g.wa2 + ((1 + k : Int) - 1)) (asum g.n (at2 g.a g.lda 1 (1 + k)) 1 st.2 - fabs (st.2 (g.wa1 + ((1 + k : Int) - 1)))))) (s := ((0 : K), m))
    (fun (c : Nat) (st : K × Mem K) => 0 ≤ st.1 ∧ (1 ≤ c → m (elem g.a g.lda 0 0) ≠ 0 → 0 < st.1) ∧ ∀ p, ¬vec g.wa2 n p → st.2 p = m p)
    (g.n + 1 - 1).toNat ⟨le_rfl, fun h => absurd h (by omega), fun _ _ => rfl⟩ (by
      intro c hc st ⟨h1, h2, h3⟩
      dsimp only
      refine ⟨?_, ?_, fun p hp => by rw [put_other _ _ fun h => hp ⟨c, by omega, by omega⟩, h3 p hp]⟩
      · split
        · rename_i h; exact h1.trans h.le
        · exact h1
      · intro _ h0
        rcases Nat.eq_zero_or_pos c with rfl | hc0
        · have hpos : 0 < asum g.n (at2 g.a g.lda 1 (1 + (0 : Nat))) 1 st.2 := by
            rw [asum_spec le_rfl, hsz, Int.toNat_natCast, at2_elem _ _ 0 0 (by norm_num) (by norm_num)]
            refine sum_pos' (fun i _ => abs_nonneg _) ⟨0, mem_range.2 hn, ?_⟩
            rw [slot_one, Nat.cast_zero, add_zero, h3 _ (L.a2 0 0 hn hn)]
            exact abs_pos.2 h0
          split
          · exact hpos
          · rename_i h; exact lt_of_lt_of_le hpos (not_lt.1 h)
        · split
          · rename_i h; exact h1.trans_lt h
          · exact h2 hc0 h0)
  exact ⟨key.1, key.2.1 (by omega)⟩

/-- The quantities computed at the beginning. -/
theorem start_data (hsqrt : ∀ a : K, 0 ≤ a → 0 ≤ CMath.sqrt a ∧ CMath.sqrt a * CMath.sqrt a = a) (L : Layout g n) (mem : Mem K) :
    ∃ bn pars parl paru : K, 0 ≤ bn ∧ bn * bn = sq n (at1 mem g.b) ∧
    (∀ j < n, ∑ i ∈ range n, |sym (mat g mem) i j| - |mat g mem j j| + mat g mem j j ≤ parl) ∧
    (∀ j < n, ∑ i ∈ range n, |sym (mat g mem) i j| - |mat g mem j j| - mat g mem j j ≤ paru) ∧
    ((∀ j < n, 0 < mat g mem j j) → pars < 0) ∧
    (start g mem).pars = pars ∧
    (start g mem).parl = (if (if bn / g.delta - parl < pars then pars else bn / g.delta - parl) < 0 then 0 else (if bn / g.delta - parl < pars then pars else bn / g.delta - parl)) ∧
    (start g mem).par = (if (if g.par.getD 0 < (start g mem).parl then (start g mem).parl else g.par.getD 0) >
      (if bn / g.delta + paru < 0 then 0 else bn / g.delta + paru) then (if bn / g.delta + paru < 0 then 0 else bn / g.delta + paru) else
      (if g.par.getD 0 < (start g mem).parl then (start g mem).parl else g.par.getD 0)) ∧
    (start g mem).paru = updateMax (if bn / g.delta + paru < 0 then 0 else bn / g.delta + paru) ((1 + g.rtol) * (start g mem).parl) := by
  have hl := L.lead
  have hn := L.pos
  have hsz := L.size
  have hS := start_saved L mem
  let m1 := forUp 1 (g.n + 1) 1 (fun j mem => put (put mem (g.x + (j - 1)) 0) (g.z + (j - 1)) 0) mem
  let m2 := copy g.n g.a (g.lda + 1) g.wa1 1 m1
  let m3 := saveUpper g.n g.a g.lda m2
  let m4 := (rowSums g m3).2
  let B := bounds g (rowSums g m3).1 m4
  let bn := nrm2 g.n g.b 1 m4
  have e4 : (start g mem).mem = m4 := rfl
  obtain ⟨hB, hB'⟩ := bounds_spec L (rowSums g m3).1 m4
  obtain ⟨b1, b2⟩ := nrm2_one hsqrt n g.b m4
  rw [← hsz] at b1 b2
  have h2 : ∀ j < n, m4 (g.wa1 + j) = mat g mem j j := by
    intro j hj
    have := hS.diag j hj
    rw [e4] at this
    exact this
  have hm : ∀ p, ¬vec g.wa2 n p → m4 p = m3 p := by
    intro p hp
    show (rowSums g m3).2 p = m3 p
    unfold rowSums
    rw [forUp_nat]
    refine (loop_inv (fun _ (st : K × Mem K) => st.2 p = m3 p) _ rfl ?_)
    intro k hk st hst
    dsimp only
    rw [put_other _ _ fun h => hp ⟨k, by omega, by omega⟩, hst]
  have hup : ∀ i j, i ≤ j → j < n → m4 (elem g.a g.lda i j) = mem (elem g.a g.lda i j) := by
    intro i j hij hj
    have hi : i < n := by omega
    rw [hm _ (L.a2 i j hi hj)]
    have a1 : m3 (elem g.a g.lda i j) = m2 (elem g.a g.lda i j) := by
      show saveUpper g.n g.a g.lda m2 _ = _
      rw [hsz]
      apply (saveUpper_spec g.a hl m2).2
      intro i' j' hij' hj'
      exact elem_ne (by omega) (by omega) (by omega)
    have a2 : m2 (elem g.a g.lda i j) = m1 (elem g.a g.lda i j) := copy_vec _ _ _ _ _ (by omega) (L.a1 i j hi hj)
    have a3 : m1 (elem g.a g.lda i j) = mem (elem g.a g.lda i j) := by
      show forUp 1 (g.n + 1) 1 (fun j mem => put (put mem (g.x + (j - 1)) 0) (g.z + (j - 1)) 0) mem _ = _
      rw [forUp_nat]
      apply loop_frame'
      intro k hk m
      rw [put_other _ _ fun h => L.az i j hi hj ⟨k, by omega, by omega⟩, put_other _ _ fun h => L.ax i j hi hj ⟨k, by omega, by omega⟩]
    rw [a1, a2, a3]
  have h3 : ∀ j < n, m4 (g.wa2 + j) = ∑ i ∈ range n, |sym (mat g mem) i j| - |mat g mem j j| := by
    intro j hj
    have := rowSums_spec L m3 j hj
    show (rowSums g m3).2 (g.wa2 + j) = _
    rw [this, ← hm _ (L.w12 _ ⟨j, hj, rfl⟩), h2 j hj]
    congr 1
    refine sum_congr rfl fun i hi => ?_
    rw [mem_range] at hi
    rw [← hm _ (L.a2 i j hi hj)]
    congr 1
    unfold sym
    split
    · exact hup i j (by assumption) hj
    · have := hS.low j i (by omega) hi
      rw [e4] at this
      exact this
  refine ⟨bn, B.1, B.2.1, B.2.2, b1, ?_, ?_, ?_, ?_, rfl, rfl, rfl, rfl⟩
  · show nrm2 g.n g.b 1 m4 * nrm2 g.n g.b 1 m4 = _
    rw [b2]
    apply sq_congr
    intro k hk
    have := hS.b L hk
    rw [e4] at this
    exact this
  · intro j hj
    have := (hB j hj).1
    rw [h2 j hj, h3 j hj] at this
    exact this
  · intro j hj
    have := (hB j hj).2
    rw [h2 j hj, h3 j hj] at this
    exact this
  · intro hpos
    refine hB' ((rowSums_norm L m3).2 ?_) fun j hj => by rw [h2 j hj]; exact hpos j hj
    rw [← hm _ (L.a2 0 0 hn hn), hup 0 0 le_rfl hn]
    exact (hpos 0 hn).ne'

/-- The parameters at the beginning. -/
theorem start_par (hsqrt : ∀ a : K, 0 ≤ a → 0 ≤ CMath.sqrt a ∧ CMath.sqrt a * CMath.sqrt a = a) (L : Layout g n) (mem : Mem K) :
    0 ≤ (start g mem).par ∧ 0 ≤ (start g mem).parl ∧ 0 ≤ (start g mem).paru ∧ ((start g mem).paru = 0 → (start g mem).par = 0 ∧ Convex g n mem) := by
  obtain ⟨bn, pars, bl, bu, b1, b2, -, hB, -, -, e2, e1, e3⟩ := start_data hsqrt L mem
  have hpl : 0 ≤ (start g mem).parl := by
    rw [e2]
    generalize (if bn / g.delta - bl < pars then pars else bn / g.delta - bl) = u
    split
    · exact le_rfl
    · rename_i h; exact not_lt.1 h
  generalize (start g mem).parl = parl at *
  have hpu : 0 ≤ (if bn / g.delta + bu < 0 then 0 else bn / g.delta + bu) ∧ bn / g.delta + bu ≤ (if bn / g.delta + bu < 0 then 0 else bn / g.delta + bu) := by
    split
    · rename_i h; exact ⟨le_rfl, h.le⟩
    · rename_i h; exact ⟨not_lt.1 h, le_rfl⟩
  generalize (if bn / g.delta + bu < 0 then 0 else bn / g.delta + bu) = paru at *
  generalize g.par.getD 0 = par0 at *
  have hpp : 0 ≤ if par0 < parl then parl else par0 := by
    split
    · exact hpl
    · rename_i h; exact hpl.trans (not_lt.1 h)
  generalize (if par0 < parl then parl else par0) = par at *
  rw [e1, e3]
  refine ⟨?_, hpl, hpu.1.trans (updateMax_left _ _), ?_⟩
  · split
    · exact hpu.1
    · exact hpp
  · intro h0
    have hu : paru ≤ 0 := by have := updateMax_left paru ((1 + g.rtol) * parl); rw [h0] at this; exact this
    refine ⟨?_, bn, b1, b2, ?_⟩
    · split
      · exact le_antisymm hu hpu.1
      · rename_i h
        exact le_antisymm ((not_lt.1 h).trans hu) hpp
    · apply gershgorin
      intro j hj
      have h1 := hB j hj
      linarith [hpu.2]

theorem Good.congr {mem0 : Mem K} {st st' : St K} (h : Good g n mem0 st) (h1 : st'.parf = st.parf) (h2 : st'.xnorm = st.xnorm) (h3 : st'.rxnorm = st.rxnorm)
    (h4 : st'.rednc = st.rednc) (h5 : st'.alpha = st.alpha) (h6 : st'.rznorm = st.rznorm) (hx : ∀ k < n, st'.mem (g.x + k) = st.mem (g.x + k))
    (hz : ∀ k < n, st'.mem (g.z + k) = st.mem (g.z + k)) : Good g n mem0 st' := by
  have hx' : ∀ k < n, at1 st'.mem g.x k = at1 st.mem g.x k := hx
  have hz' : ∀ k < n, at1 st'.mem g.z k = at1 st.mem g.z k := hz
  refine ⟨?_, ?_, ?_, ?_, ?_, ?_, ?_, ?_⟩
  · rw [h1]; exact h.par
  · rw [h1]; exact h.psd
  · rw [h1]; exact h.pd
  · rw [h1]
    intro i hi
    rw [← h.sol i hi, hx' i hi]
    congr 1
    exact sum_congr rfl fun j hj => by rw [hx' j (mem_range.1 hj)]
  · rw [h2]; exact h.xn0
  · rw [h2, sq_congr hx']; exact h.xn
  · rw [h3, h.rx]
    congr 1
    exact sum_congr rfl fun j hj => by rw [hx' j (mem_range.1 hj)]
  · rw [h4, h5, h6, h1, h2]
    intro hr
    obtain ⟨r1, r2, r3⟩ := h.red hr
    refine ⟨?_, ?_, r3⟩
    · rw [← r1]
      exact sq_congr fun k hk => by rw [hx' k hk, hz' k hk]
    · rw [r2, sq_congr hz']
      congr 2
      exact sum_congr rfl fun i hi => sum_congr rfl fun j hj => by rw [hz' i (mem_range.1 hi), hz' j (mem_range.1 hj)]

theorem NoneYet.congr {st st' : St K} (h : NoneYet g n st) (h1 : st'.parf = st.parf) (h2 : st'.xnorm = st.xnorm) (h3 : st'.rxnorm = st.rxnorm)
    (h4 : st'.rednc = st.rednc) (hx : ∀ k < n, st'.mem (g.x + k) = st.mem (g.x + k)) : NoneYet g n st' :=
  ⟨h1.trans h.parf, h2.trans h.xnorm, h3.trans h.rxnorm, h4.trans h.rednc, fun k hk => (hx k hk).trans (h.x k hk)⟩

/-- The state at the beginning of the iterations. -/
structure Head (g : Args K) (n : Nat) (mem0 : Mem K) (st : St K) : Prop where
  info : st.info = 0
  saved : Saved g n mem0 st.mem
  par : 0 ≤ st.par
  parl : 0 ≤ st.parl
  paru : 0 ≤ st.paru
  point : Good g n mem0 st ∨ NoneYet g n st
  first : st.paru = 0 → st.par = 0 ∧ NoneYet g n st ∧ Convex g n mem0

/-- The matrix is positive and `b` is zero. -/
def Trivial (g : Args K) (n : Nat) (mem0 : Mem K) : Prop := (∀ k < n, mem0 (g.b + k) = 0) ∧ ∀ v, 0 ≤ quad (mat g mem0) n v

/-- The state on exit. -/
structure Exit (g : Args K) (n : Nat) (mem0 : Mem K) (st : St K) : Prop where
  saved : Saved g n mem0 st.mem
  point : Good g n mem0 st ∨ NoneYet g n st
  one : st.info = 1 → Good g n mem0 st ∧ Close g st
  two : st.info = 2 → (Good g n mem0 st ∧ st.xnorm < g.delta ∧ (st.parf * (g.delta * g.delta) + st.rxnorm * st.rxnorm) / 2 ≤ g.atol) ∨ (NoneYet g n st ∧ Trivial g n mem0)

theorem start_head (hsqrt : ∀ a : K, 0 ≤ a → 0 ≤ CMath.sqrt a ∧ CMath.sqrt a * CMath.sqrt a = a) (L : Layout g n) (mem : Mem K) : Head g n mem (start g mem) := by
  obtain ⟨h1, h2, h3, h4⟩ := start_par hsqrt L mem
  have hN : NoneYet g n (start g mem) := ⟨rfl, rfl, rfl, rfl, start_x L mem⟩
  exact ⟨rfl, start_saved L mem, h1, h2, h3, Or.inr hN, fun h => ⟨(h4 h).1, hN, (h4 h).2⟩⟩

theorem vec_upper (L : Layout g n) {v : Int} (hv : ∀ i j, i < n → j < n → ¬vec v n (elem g.a g.lda i j)) {k : Nat} (hk : k < n) : ¬upper g n (v + k) := by
  rintro ⟨i, j, hij, hj, h⟩
  exact hv i j (by omega) hj ⟨k, hk, h.symm⟩

/-- The parameter of an iteration. -/
theorem shift_par (hsqrt : ∀ a : K, 0 ≤ a → 0 ≤ CMath.sqrt a ∧ CMath.sqrt a * CMath.sqrt a = a) {st : St K} (h1 : 0 ≤ st.par) (h2 : 0 ≤ st.parl) :
    0 ≤ (shift g st).par ∧ (st.paru = 0 → (shift g st).par = st.par) := by
  unfold shift
  dsimp only
  split
  · rename_i h
    refine ⟨mul_nonneg ?_ h.2.le, fun h0 => absurd h.2 (by rw [h0]; exact lt_irrefl _)⟩
    split
    · exact (hsqrt _ (div_nonneg h2 h.2.le)).1
    · rw [ExactMath.lit_eq]; positivity
  · exact ⟨h1, fun _ => rfl⟩

/-- If the bound of Gershgorin is large the solution is in the ball. -/
theorem convex_inside {mem0 : Mem K} {st : St K} (hd : 0 < g.delta) (hC : Convex g n mem0) (hG : Good g n mem0 st) (h0 : st.parf = 0) : st.xnorm ≤ g.delta := by
  obtain ⟨bn, b0, b1, b2⟩ := hC
  have hq : quad (mat g mem0) n (at1 st.mem g.x) = -dots n (at1 mem0 g.b) (at1 st.mem g.x) := by
    have := hG.sol.bil (at1 st.mem g.x)
    rw [h0, zero_mul, sub_zero] at this
    exact this
  have hb := b2 (at1 st.mem g.x)
  rw [hq, ← hG.xn] at hb
  have hcs := dots_sq n (at1 mem0 g.b) (at1 st.mem g.x)
  rw [← b1, ← hG.xn] at hcs
  have hcs' : -dots n (at1 mem0 g.b) (at1 st.mem g.x) ≤ bn * st.xnorm := by
    have hn : 0 ≤ bn * st.xnorm := mul_nonneg b0 hG.xn0
    by_contra h
    push Not at h
    have : bn * st.xnorm * (bn * st.xnorm) < dots n (at1 mem0 g.b) (at1 st.mem g.x) * dots n (at1 mem0 g.b) (at1 st.mem g.x) := by nlinarith
    nlinarith
  rcases b0.eq_or_lt with hz | hp
  · -- b = 0
    have hb0 : ∀ k < n, at1 mem0 g.b k = 0 := sq_eq_zero (by rw [← b1, ← hz, mul_zero])
    have hdot : dots n (at1 mem0 g.b) (at1 st.mem g.x) = 0 := sum_eq_zero fun k hk => by rw [hb0 k (mem_range.1 hk), zero_mul]
    rw [hdot, neg_zero] at hq
    have hx : ¬∃ i < n, at1 st.mem g.x i ≠ 0 := by
      intro hx
      have := hG.pd _ hx
      rw [hq, h0, zero_mul, add_zero] at this
      exact lt_irrefl _ this
    push Not at hx
    have : sq n (at1 st.mem g.x) = 0 := sum_eq_zero fun k hk => by rw [hx k (mem_range.1 hk), zero_mul]
    rw [← hG.xn] at this
    rw [mul_self_eq_zero.1 this]
    exact hd.le
  · by_contra h
    push Not at h
    have h1 : bn / g.delta * (st.xnorm * st.xnorm) ≤ bn * st.xnorm := hb.trans hcs'
    have h2 : bn * (st.xnorm * st.xnorm) ≤ bn * st.xnorm * g.delta := by
      have := mul_le_mul_of_nonneg_right h1 hd.le
      have e : bn / g.delta * (st.xnorm * st.xnorm) * g.delta = bn * (st.xnorm * st.xnorm) := by field_simp
      rw [e] at this
      exact this
    have hxp : 0 < bn * st.xnorm := mul_pos hp (hd.trans h)
    nlinarith

/-- One iteration. -/
theorem step_inv (hsqrt : ∀ a : K, 0 ≤ a → 0 ≤ CMath.sqrt a ∧ CMath.sqrt a * CMath.sqrt a = a) (L : Layout g n) (hd : 0 < g.delta) (hr0 : 0 ≤ g.rtol) {mem0 : Mem K} {st : St K}
    (H : Head g n mem0 st) :
    match step g st with
    | .inl r => ∃ t, Exit g n mem0 t ∧ r = finish g t
    | .inr st' => Head g n mem0 st' := by
  have hl := L.lead
  have hn := L.pos
  have hsz := L.size
  have hxu : ∀ k < n, (shift g st).mem (g.x + k) = st.mem (g.x + k) := fun k hk => shift_frame L st (vec_upper L L.ax hk)
  have hzu : ∀ k < n, (shift g st).mem (g.z + k) = st.mem (g.z + k) := fun k hk => shift_frame L st (vec_upper L L.az hk)
  have hS1 : Saved g n mem0 (shift g st).mem := H.saved.mono L fun p hp => shift_frame L st fun hu => hp (Or.inl hu)
  have hU := shift_upper L H.saved
  obtain ⟨sp0, sp1⟩ := shift_par (g := g) hsqrt H.par H.parl
  have sinfo : (shift g st).info = 0 := H.info
  have sparl : (shift g st).parl = st.parl := rfl
  have sparu : (shift g st).paru = st.paru := rfl
  have hpt : Good g n mem0 (shift g st) ∨ NoneYet g n (shift g st) := by
    rcases H.point with h | h
    · exact Or.inl (h.congr rfl rfl rfl rfl rfl rfl hxu hzu)
    · exact Or.inr (h.congr rfl rfl rfl rfl hxu)
  have hfirst : st.paru = 0 → (shift g st).par = 0 ∧ NoneYet g n (shift g st) ∧ Convex g n mem0 := by
    intro h
    obtain ⟨f1, f2, f3⟩ := H.first h
    exact ⟨(sp1 h).trans f1, f2.congr rfl rfl rfl rfl hxu, f3⟩
  have hSe : Saved g n mem0 (examine g (shift g st)).mem := hS1.mono L fun p hp => examine_frame L _ hp
  -- after the factorization
  have key : (Good g n mem0 (examine g (shift g st)) ∨ NoneYet g n (examine g (shift g st))) ∧
      ((examine g (shift g st)).info = 1 → Good g n mem0 (examine g (shift g st)) ∧ Close g (examine g (shift g st))) ∧
      ((examine g (shift g st)).info = 2 → Good g n mem0 (examine g (shift g st)) ∧ (examine g (shift g st)).xnorm < g.delta ∧
        ((examine g (shift g st)).parf * (g.delta * g.delta) + (examine g (shift g st)).rxnorm * (examine g (shift g st)).rxnorm) / 2 ≤ g.atol) ∧
      ((examine g (shift g st)).info = 0 → (examine g (shift g st)).paru = 0 → NoneYet g n (examine g (shift g st)) ∧ Trivial g n mem0) ∧
      0 ≤ (examine g (shift g st)).parl ∧ 0 ≤ (examine g (shift g st)).paru := by
    by_cases h0 : (potf2 .upper g.n g.a g.lda (shift g st).mem).1 = 0
    · obtain ⟨k1, k2, k3, k4, k5, k6, k7, -⟩ := examine_good hsqrt L hd hS1 hU sp0 sinfo h0
      refine ⟨Or.inl k1, fun h => ⟨k1, k3 h⟩, fun h => ⟨k1, k4 h⟩, ?_, ?_, ?_⟩
      · intro hi hu
        exfalso
        rw [k6] at hu
        by_cases hc : (examine g (shift g st)).xnorm < g.delta ∧ (shift g st).paru > (shift g st).par
        · rw [if_pos hc] at hu
          refine k5 hi ⟨hu, ?_⟩
          nlinarith [hc.1]
        · rw [if_neg hc] at hu
          obtain ⟨f1, -, f3⟩ := hfirst hu
          have hx := convex_inside hd f3 k1 (k2.trans f1)
          exact k5 hi ⟨f1, by nlinarith⟩
      · rw [k7]
        split
        · exact sp0
        · exact H.parl
      · rw [k6]
        split
        · exact sp0
        · exact H.paru
    · have hpot := potf2_frame (uplo := .upper) (n := n) trivial g.a (lda := g.lda) (by omega) (shift g st).mem
      rw [← hsz] at hpot
      have hmemq : ∀ v : Int, (∀ i j, i < n → j < n → ¬vec v n (elem g.a g.lda i j)) → ∀ k < n, (potf2 .upper g.n g.a g.lda (shift g st).mem).2 (v + k) = (shift g st).mem (v + k) := by
        intro v hv k hk
        apply hpot.2.2
        intro i j hi hj hij h
        exact hv i j hi hj ⟨k, hk, h.symm⟩
      have he : examine g (shift g st) = indefinite g (potf2 .upper g.n g.a g.lda (shift g st).mem).1 { shift g st with mem := (potf2 .upper g.n g.a g.lda (shift g st).mem).2 } := by
        unfold examine
        dsimp only
        rw [if_neg h0]
      have hx : ∀ k < n, (examine g (shift g st)).mem (g.x + k) = (shift g st).mem (g.x + k) := by
        intro k hk
        rw [he, indefinite_frame L (by omega) (by rw [← hsz]; omega) _ (vec_upper L L.ax hk) (L.x2 _ ⟨k, hk, rfl⟩)]
        exact hmemq g.x L.ax k hk
      have hz : ∀ k < n, (examine g (shift g st)).mem (g.z + k) = (shift g st).mem (g.z + k) := by
        intro k hk
        rw [he, indefinite_frame L (by omega) (by rw [← hsz]; omega) _ (vec_upper L L.az hk) (L.z2 _ ⟨k, hk, rfl⟩)]
        exact hmemq g.z L.az k hk
      have f1 : (examine g (shift g st)).parf = (shift g st).parf := by rw [he]; rfl
      have f2 : (examine g (shift g st)).xnorm = (shift g st).xnorm := by rw [he]; rfl
      have f3 : (examine g (shift g st)).rxnorm = (shift g st).rxnorm := by rw [he]; rfl
      have f4 : (examine g (shift g st)).rednc = (shift g st).rednc := by rw [he]; rfl
      have f5 : (examine g (shift g st)).alpha = (shift g st).alpha := by rw [he]; rfl
      have f6 : (examine g (shift g st)).rznorm = (shift g st).rznorm := by rw [he]; rfl
      have f7 : (examine g (shift g st)).info = 0 := by rw [he]; exact sinfo
      have f8 : (examine g (shift g st)).parl = st.parl := by rw [he]; rfl
      have f9 : (shift g st).paru ≤ (examine g (shift g st)).paru := by
        rw [he]
        unfold indefinite
        dsimp only
        generalize (1 + g.rtol) * _ = w
        split
        · rename_i h; exact le_of_lt h
        · exact le_rfl
      refine ⟨?_, ?_, ?_, ?_, ?_, ?_⟩
      · rcases hpt with h | h
        · exact Or.inl (h.congr f1 f2 f3 f4 f5 f6 hx hz)
        · exact Or.inr (h.congr f1 f2 f3 f4 hx)
      · intro h; omega
      · intro h; omega
      · intro _ hu
        have hpu : st.paru = 0 := le_antisymm (by rw [← hu]; exact f9) H.paru
        obtain ⟨p1, p2, bn, b0, b1, b2⟩ := hfirst hpu
        refine ⟨p2.congr f1 f2 f3 f4 hx, ?_⟩
        -- the matrix would be positive definite
        rcases b0.eq_or_lt with hz0 | hpos
        · refine ⟨sq_eq_zero (v := at1 mem0 g.b) (by rw [← b1, ← hz0, mul_zero]), fun v => ?_⟩
          have := b2 v
          rw [← hz0, zero_div, zero_mul] at this
          exact this
        · exfalso
          apply h0
          have hP := (potf2_posDef hsqrt (uplo := .upper) trivial (n := n) g.a (lda := g.lda) (by omega) (shift g st).mem).1
          rw [← hsz] at hP
          rw [hP]
          intro v hv
          have e : quad (stored .upper g.a g.lda (shift g st).mem) n v = quad (shifted (mat g mem0) (shift g st).par) n v := by
            have hst : ∀ i j, i ≤ j → j < n → stored .upper g.a g.lda (shift g st).mem i j = shifted (mat g mem0) (shift g st).par i j := by
              intro i j hij hj
              unfold stored half
              rw [if_pos rfl]
              exact hU i j hij hj
            refine sum_congr rfl fun i hi => sum_congr rfl fun j hj => ?_
            rw [mem_range] at hi hj
            congr 2
            unfold sym
            split
            · exact hst i j (by assumption) hj
            · exact hst j i (by omega) hi
          rw [e, quad_shifted, p1, zero_mul, add_zero]
          refine lt_of_lt_of_le ?_ (b2 v)
          obtain ⟨i, hi, hvi⟩ := hv
          have hsq : 0 < sq n v := lt_of_le_of_ne (sq_nonneg' n v) fun h => hvi (sq_eq_zero h.symm i hi)
          exact mul_pos (div_pos hpos hd) hsq
      · rw [f8]; exact H.parl
      · exact H.paru.trans f9
  obtain ⟨k1, k2, k3, k4, k5, k6⟩ := key
  generalize hdef : examine g (shift g st) = t at *
  have hterm : (terminate g t).parf = t.parf ∧ (terminate g t).xnorm = t.xnorm ∧ (terminate g t).rxnorm = t.rxnorm ∧ (terminate g t).rednc = t.rednc ∧
      (terminate g t).alpha = t.alpha ∧ (terminate g t).rznorm = t.rznorm ∧ (terminate g t).mem = t.mem ∧ (terminate g t).paru = t.paru ∧ (terminate g t).par = t.par ∧
      (terminate g t).parc = t.parc := ⟨rfl, rfl, rfl, rfl, rfl, rfl, rfl, rfl, rfl, rfl⟩
  have hinfo : (t.info = 0 ∧ (t.paru = 0 ∧ (terminate g t).info = 2 ∨ t.paru ≠ 0 ∧ (terminate g t).info ≠ 1 ∧ (terminate g t).info ≠ 2)) ∨ (t.info ≠ 0 ∧ (terminate g t).info = t.info) := by
    unfold terminate
    dsimp only
    by_cases h0 : t.info = 0
    · refine Or.inl ⟨h0, ?_⟩
      rw [if_pos h0]
      by_cases hu : t.paru = 0
      · rw [if_pos hu]
        exact Or.inl ⟨hu, rfl⟩
      · rw [if_neg hu]
        refine Or.inr ⟨hu, ?_⟩
        split
        · exact ⟨by decide, by decide⟩
        split
        · exact ⟨by decide, by decide⟩
        · exact ⟨by decide, by decide⟩
    · rw [if_neg h0]
      exact Or.inr ⟨h0, rfl⟩
  have hparl : 0 ≤ (terminate g t).parl := by
    unfold terminate
    dsimp only
    split
    · rename_i h; exact k5.trans h.le
    · exact k5
  obtain ⟨t1, t2, t3, t4, t5, t6, t7, t8, t9, t10⟩ := hterm
  have gT : Good g n mem0 t → Good g n mem0 (terminate g t) := fun h => h.congr t1 t2 t3 t4 t5 t6 (fun k _ => by rw [t7]) (fun k _ => by rw [t7])
  have nT : NoneYet g n t → NoneYet g n (terminate g t) := fun h => h.congr t1 t2 t3 t4 (fun k _ => by rw [t7])
  have cT : Close g t → Close g (terminate g t) := by
    intro h
    unfold Close at h ⊢
    rw [t1, t2, t3, t4, t6]
    exact h
  have hST : Saved g n mem0 (terminate g t).mem := by rw [t7]; exact hSe
  have pT : Good g n mem0 (terminate g t) ∨ NoneYet g n (terminate g t) := k1.imp gT nT
  unfold step
  dsimp only
  rw [hdef]
  by_cases hi : (terminate g t).info ≠ 0
  · rw [if_pos hi]
    refine ⟨terminate g t, ⟨hST, pT, ?_, ?_⟩, rfl⟩
    · intro h
      rcases hinfo with ⟨_, h' | h'⟩ | h'
      · omega
      · exact absurd h h'.2.1
      · rw [h] at h'
        obtain ⟨g1, g2⟩ := k2 h'.2.symm
        exact ⟨gT g1, cT g2⟩
    · intro h
      rcases hinfo with ⟨h0, h' | h'⟩ | h'
      · obtain ⟨g1, g2⟩ := k4 h0 h'.1
        exact Or.inr ⟨nT g1, g2⟩
      · exact absurd h h'.2.2
      · rw [h] at h'
        obtain ⟨g1, g2, g3⟩ := k3 h'.2.symm
        refine Or.inl ⟨gT g1, ?_, ?_⟩
        · rw [t2]; exact g2
        · rw [t1, t3]; exact g3
  · rw [if_neg hi]
    push Not at hi
    dsimp only
    have hu : t.paru ≠ 0 := by
      rcases hinfo with ⟨_, h' | h'⟩ | h'
      · omega
      · exact h'.1
      · omega
    refine ⟨hi, hST, ?_, hparl, ?_, ?_, ?_⟩
    · dsimp only
      split
      · exact hparl
      · rename_i h
        exact hparl.trans (not_lt.1 h)
    · show 0 ≤ (terminate g t).paru
      rw [t8]; exact k6
    · exact pT.imp (fun h => h.congr rfl rfl rfl rfl rfl rfl (fun _ _ => rfl) (fun _ _ => rfl)) (fun h => h.congr rfl rfl rfl rfl (fun _ _ => rfl))
    · intro h
      exact absurd (t8.symm.trans h) hu

/-- The solution is not overwritten by the restoration of the matrix. -/
theorem finish_x (L : Layout g n) (t : St K) : ∀ k < n, (finish g t).mem (g.x + k) = if t.rednc = true then t.mem (g.x + k) + t.alpha * t.mem (g.z + k) else t.mem (g.x + k) := by
  intro k hk
  have hl := L.lead
  have hsz := L.size
  have hnot : ∀ i j, i < n → j < n → g.x + k ≠ elem g.a g.lda i j := fun i j hi hj h => L.ax i j hi hj ⟨k, hk, h.symm⟩
  have key : ∀ m : Mem K, copy g.n g.wa1 1 g.a (g.lda + 1) (restoreUpper g.n g.a g.lda m) (g.x + k) = m (g.x + k) := by
    intro m
    rw [copy_frame]
    · have := (restoreUpper_spec g.a hl m).2 (g.x + k) fun i j hij hj => hnot i j (by omega) hj
      rw [← hsz] at this
      exact this
    · intro i hi h
      rw [slot_nonneg (by omega)] at h
      exact hnot i i (by omega) (by omega) (by rw [h]; unfold elem; ring)
  unfold finish
  dsimp only
  by_cases hr : t.rednc = true
  · rw [if_pos hr, if_pos hr]
    dsimp only
    rw [key, hsz]
    have := (axpy_one (m := n) (s := t.alpha) (x := g.z) (incx := 1) (y := g.x) (fun i j hij hj h => by
      rw [slot_one] at h
      exact L.xz _ ⟨i, by omega, rfl⟩ ⟨j, by omega, h⟩) t.mem).1 k (by omega)
    rw [this, slot_one]
    ring
  · rw [if_neg hr, if_neg hr]
    exact key _

/-- The value of the objective function. -/
theorem exit_value (L : Layout g n) {mem0 : Mem K} {t : St K} (h : Exit g n mem0 t) :
    0 ≤ (finish g t).par ∧ (finish g t).fx = objective (mat g mem0) (at1 mem0 g.b) n (at1 (finish g t).mem g.x) := by
  have hx := finish_x L t
  have hpar : (finish g t).par = t.parf := by unfold finish; rfl
  have hobj : ∀ v : Nat → K, (∀ k < n, at1 (finish g t).mem g.x k = v k) → objective (mat g mem0) (at1 mem0 g.b) n (at1 (finish g t).mem g.x) = objective (mat g mem0) (at1 mem0 g.b) n v := by
    intro v hv
    unfold objective quad dots
    congr 1
    · congr 1
      exact sum_congr rfl fun i hi => sum_congr rfl fun j hj => by rw [hv i (mem_range.1 hi), hv j (mem_range.1 hj)]
    · exact sum_congr rfl fun i hi => by rw [hv i (mem_range.1 hi)]
  rcases h.point with hG | hN
  · refine ⟨by rw [hpar]; exact hG.par, ?_⟩
    by_cases hr : t.rednc = true
    · obtain ⟨r1, r2, -⟩ := hG.red hr
      rw [hobj (fun k => at1 t.mem g.x k + t.alpha * at1 t.mem g.z k) (fun k hk => by have := hx k hk; rw [if_pos hr] at this; exact this), hG.sol.value_add, r1]
      unfold finish
      dsimp only
      rw [if_pos hr, ExactMath.lit_eq]
      dsimp only
      rw [r2, hG.rx]
      push_cast
      ring
    · rw [hobj (at1 t.mem g.x) (fun k hk => by have := hx k hk; rw [if_neg hr] at this; exact this), hG.sol.value]
      unfold finish
      dsimp only
      rw [if_neg hr, ExactMath.lit_eq]
      dsimp only
      rw [← hG.xn, hG.rx]
      push_cast
      ring
  · have hr : ¬t.rednc = true := by rw [hN.rednc]; decide
    refine ⟨by rw [hpar, hN.parf], ?_⟩
    rw [hobj (fun _ => 0) (fun k hk => by have := hx k hk; rw [if_neg hr] at this; exact this.trans (hN.x k hk))]
    unfold finish
    dsimp only
    rw [if_neg hr, hN.rxnorm, hN.parf]
    dsimp only
    unfold objective quad dots
    simp

/-- The lower bound of the objective function in the ball, and what the exit achieves. -/
theorem exit_bounds (L : Layout g n) {mem0 : Mem K} {t : St K} (hE : Exit g n mem0 t) (hG : Good g n mem0 t) :
    let M := (t.rxnorm * t.rxnorm + t.parf * (g.delta * g.delta)) / 2
    0 ≤ t.rxnorm * t.rxnorm ∧
    (∀ v, sq n v ≤ g.delta * g.delta → -M ≤ objective (mat g mem0) (at1 mem0 g.b) n v) ∧
    (t.rednc = true → sq n (at1 (finish g t).mem g.x) = g.delta * g.delta ∧ (finish g t).fx = -(M - t.rznorm * t.rznorm / 2)) ∧
    (t.rednc = false → sq n (at1 (finish g t).mem g.x) = t.xnorm * t.xnorm) ∧
    (finish g t).fx ≤ -((t.rxnorm * t.rxnorm + t.parf * (t.xnorm * t.xnorm)) / 2) := by
  intro M
  have hx := finish_x L t
  refine ⟨mul_self_nonneg _, ?_, ?_, ?_, ?_⟩
  · intro v hv
    have h1 := hG.sol.bound hG.psd v
    have h2 := mul_le_mul_of_nonneg_left hv hG.par
    have h3 := hG.rx
    show -((t.rxnorm * t.rxnorm + t.parf * (g.delta * g.delta)) / 2) ≤ _
    linarith
  · intro hr
    refine ⟨?_, ?_⟩
    · rw [← (hG.red hr).1]
      exact sq_congr fun k hk => by have := hx k hk; rw [if_pos hr] at this; exact this
    · unfold finish
      dsimp only
      rw [if_pos hr, ExactMath.lit_eq]
      show _ = -((t.rxnorm * t.rxnorm + t.parf * (g.delta * g.delta)) / 2 - t.rznorm * t.rznorm / 2)
      push_cast
      ring
  · intro hr
    rw [hG.xn]
    exact sq_congr fun k hk => by have := hx k hk; rw [if_neg (by rw [hr]; decide)] at this; exact this
  · unfold finish
    dsimp only
    by_cases hr : t.rednc = true
    · rw [if_pos hr, ExactMath.lit_eq]
      dsimp only
      have := (hG.red hr).2.2
      push_cast
      linarith
    · rw [if_neg hr, ExactMath.lit_eq]
      dsimp only
      push_cast
      apply le_of_eq
      ring

theorem gqt_exit (hsqrt : ∀ a : K, 0 ≤ a → 0 ≤ CMath.sqrt a ∧ CMath.sqrt a * CMath.sqrt a = a) (L : Layout g n) (hd : 0 < g.delta) (hr0 : 0 ≤ g.rtol) {mem : Mem K} {fuel : Nat}
    {r : Result K} (hr : gqt g fuel mem = some r) : ∃ t, Exit g n mem t ∧ r = finish g t := by
  refine gqt_inv (fun st => Head g n mem st) (fun r => ∃ t, Exit g n mem t ∧ r = finish g t) (start_head hsqrt L mem) (fun st h => h.info) ?_ hr
  intro st H
  exact step_inv hsqrt L hd hr0 H

/-- The returned value is the objective function at the returned point, whatever the reason of the exit. -/
theorem gqt_value (hsqrt : ∀ a : K, 0 ≤ a → 0 ≤ CMath.sqrt a ∧ CMath.sqrt a * CMath.sqrt a = a) (L : Layout g n) (hd : 0 < g.delta) (hr0 : 0 ≤ g.rtol) {mem : Mem K} {fuel : Nat}
    {r : Result K} (hr : gqt g fuel mem = some r) : 0 ≤ r.par ∧ r.fx = objective (mat g mem) (at1 mem g.b) n (at1 r.mem g.x) := by
  obtain ⟨t, hE, rfl⟩ := gqt_exit hsqrt L hd hr0 hr
  exact exit_value L hE

/-- Relative accuracy: with the code 1, the point is in the ball (up to the tolerance) and its value is within the tolerance of the smallest value in the ball. -/
theorem gqt_relative (hsqrt : ∀ a : K, 0 ≤ a → 0 ≤ CMath.sqrt a ∧ CMath.sqrt a * CMath.sqrt a = a) (L : Layout g n) (hd : 0 < g.delta) (hr0 : 0 ≤ g.rtol) (hr1 : g.rtol ≤ 1)
    {mem : Mem K} {fuel : Nat} {r : Result K} (hr : gqt g fuel mem = some r) (hi : r.info = 1) :
    sq n (at1 r.mem g.x) ≤ ((1 + g.rtol) * g.delta) * ((1 + g.rtol) * g.delta) ∧
    (∀ v, (∃ i < n, v i ≠ 0) → 0 < quad (mat g mem) n v + r.par * sq n v) ∧
    ((∃ k < n, mem (g.b + k) ≠ 0) → ∀ v, sq n v ≤ g.delta * g.delta →
      objective (mat g mem) (at1 mem g.b) n (at1 r.mem g.x) ≤ (1 - g.rtol) * (1 - g.rtol) * objective (mat g mem) (at1 mem g.b) n v) := by
  obtain ⟨t, hE, rfl⟩ := gqt_exit hsqrt L hd hr0 hr
  have hval := (exit_value L hE).2
  have hti : t.info = 1 := hi
  obtain ⟨hG, hC⟩ := hE.one hti
  obtain ⟨h0, h1, h2, h3, h4⟩ := exit_bounds L hE hG
  refine ⟨?_, ?_, ?_⟩
  · by_cases hred : t.rednc = true
    · rw [(h2 hred).1]
      nlinarith [mul_nonneg hr0 hd.le]
    · rw [h3 (by simpa using hred)]
      have hle : t.xnorm ≤ (1 + g.rtol) * g.delta := by
        rcases hC with h | h | h | h
        · have := (abs_le.1 h).2
          linarith
        · exact h.2
        · nlinarith [h.1, mul_nonneg hr0 hd.le]
        · rw [h]; positivity
      exact mul_self_le_mul_self hG.xn0 hle
  · have hpar : (finish g t).par = t.parf := by unfold finish; rfl
    rw [hpar]
    exact hG.pd
  · rintro ⟨kb, hkb, hb⟩ v hv
    rw [← hval]
    have hlow := h1 v hv
    have hs0 : 0 ≤ 1 - g.rtol := by linarith
    have hs1 : 0 ≤ (1 - g.rtol) * (1 - g.rtol) := mul_nonneg hs0 hs0
    have hs2 : (1 - g.rtol) * (1 - g.rtol) ≤ 1 := by nlinarith
    have hp := hG.par
    have hlow' := mul_le_mul_of_nonneg_left hlow hs1
    refine le_trans ?_ hlow'
    -- what remains: the value against the bound
    have hbase : (1 - g.rtol) * (1 - g.rtol) * (t.parf * (g.delta * g.delta)) ≤ t.parf * (t.xnorm * t.xnorm) → (finish g t).fx ≤
        (1 - g.rtol) * (1 - g.rtol) * -((t.rxnorm * t.rxnorm + t.parf * (g.delta * g.delta)) / 2) := by
      intro h
      have h5 := mul_le_mul_of_nonneg_right hs2 h0
      linarith
    rcases hC with h | h | h | h
    · apply hbase
      have hx1 : (1 - g.rtol) * g.delta ≤ t.xnorm := by
        have := (abs_le.1 h).1
        linarith
      have hx2 := mul_self_le_mul_self (mul_nonneg hs0 hd.le) hx1
      have hx3 := mul_le_mul_of_nonneg_left hx2 hp
      calc _ = t.parf * ((1 - g.rtol) * g.delta * ((1 - g.rtol) * g.delta)) := by ring
        _ ≤ _ := hx3
    · apply hbase
      rw [h.1]
      simp
    · obtain ⟨hx1, hx2, hx3⟩ := h
      have hmain : (finish g t).fx ≤ -((t.rxnorm * t.rxnorm + t.parf * (g.delta * g.delta)) / 2 - t.rznorm * t.rznorm / 2) := by
        by_cases hred : t.rednc = true
        · exact (h2 hred).2.le
        · have := hx3 (by simpa using hred)
          linarith
      nlinarith
    · exfalso
      apply hb
      have hz : ∀ k < n, at1 t.mem g.x k = 0 := sq_eq_zero (by rw [← hG.xn, h, mul_zero])
      have := hG.sol kb hkb
      have hs : ∑ j ∈ range n, sym (mat g mem) kb j * at1 t.mem g.x j = 0 := sum_eq_zero fun j hj => by rw [hz j (mem_range.1 hj), mul_zero]
      rw [hs, hz kb hkb] at this
      have e : at1 mem g.b kb = mem (g.b + kb) := rfl
      rw [← e]
      linarith

/-- Absolute accuracy: with the code 2, the point is in the ball and no value in the ball is smaller than `-atol`. -/
theorem gqt_absolute (hsqrt : ∀ a : K, 0 ≤ a → 0 ≤ CMath.sqrt a ∧ CMath.sqrt a * CMath.sqrt a = a) (L : Layout g n) (hd : 0 < g.delta) (hr0 : 0 ≤ g.rtol) (ha : 0 ≤ g.atol)
    {mem : Mem K} {fuel : Nat} {r : Result K} (hr : gqt g fuel mem = some r) (hi : r.info = 2) :
    sq n (at1 r.mem g.x) ≤ g.delta * g.delta ∧ r.fx ≤ 0 ∧ ∀ v, sq n v ≤ g.delta * g.delta → -g.atol ≤ objective (mat g mem) (at1 mem g.b) n v := by
  obtain ⟨t, hE, rfl⟩ := gqt_exit hsqrt L hd hr0 hr
  have hti : t.info = 2 := hi
  rcases hE.two hti with ⟨hG, hx, hM⟩ | ⟨hN, hb, hA⟩
  · obtain ⟨h0, h1, h2, h3, h4⟩ := exit_bounds L hE hG
    refine ⟨?_, ?_, ?_⟩
    · by_cases hred : t.rednc = true
      · exact (h2 hred).1.le
      · rw [h3 (by simpa using hred)]
        exact mul_self_le_mul_self hG.xn0 hx.le
    · have := mul_nonneg hG.par (mul_self_nonneg t.xnorm)
      linarith
    · intro v hv
      have := h1 v hv
      linarith
  · have hr : ¬t.rednc = true := by rw [hN.rednc]; decide
    have hz : ∀ k < n, at1 (finish g t).mem g.x k = 0 := by
      intro k hk
      have := finish_x L t k hk
      rw [if_neg hr] at this
      exact this.trans (hN.x k hk)
    refine ⟨?_, ?_, ?_⟩
    · have : sq n (at1 (finish g t).mem g.x) = 0 := sum_eq_zero fun k hk => by rw [hz k (mem_range.1 hk), zero_mul]
      rw [this]
      positivity
    · unfold finish
      dsimp only
      rw [if_neg hr, hN.rxnorm, hN.parf]
      simp
    · intro v _
      have hd0 : dots n (at1 mem g.b) v = 0 := sum_eq_zero fun k hk => by
        have : at1 mem g.b k = 0 := hb k (mem_range.1 hk)
        rw [this, zero_mul]
      unfold objective
      rw [hd0]
      have := hA v
      linarith

end
end Opk.Gqt
