import Verif.Bobyqa.Keep

/-!
# The provisional points of `rescue`, in exact arithmetic
-/
set_option linter.unusedSectionVars false
namespace Opk.Bobyqa
open Linalg CMath Cobyla Powell
open Newuoa (omega hform qval hform_congr omega_sym lit_half hcolumn betaOf lfun)

section
variable {K : Type} [Field K] [LinearOrder K] [IsStrictOrderedRing K] [CMath K] [ExactMath K]

/-! ### An exchange of two points -/

section swap
variable {n npt a b : Nat}

/-- What an exchange does to an index. -/
theorem swap_cases (a b i : Nat) : Equiv.swap a b i = i ∧ i ≠ a ∧ i ≠ b ∨ i = a ∧ Equiv.swap a b i = b ∨ i = b ∧ Equiv.swap a b i = a := by
  by_cases c1 : i = a
  · exact Or.inr (Or.inl ⟨c1, by rw [c1, Equiv.swap_apply_left]⟩)
  · by_cases c2 : i = b
    · exact Or.inr (Or.inr ⟨c2, by rw [c2, Equiv.swap_apply_right]⟩)
    · exact Or.inl ⟨Equiv.swap_apply_of_ne_of_ne c1 c2, c1, c2⟩

theorem col_swap (a1 : 1 ≤ a) (a2 : a ≤ npt) (b1 : 1 ≤ b) (b2 : b ≤ npt) (pts : Nat → Nat → K) (x : Nat → K) (i : Nat) :
    col n npt (fun k => pts (Equiv.swap a b k)) x i = col n npt pts x (Equiv.swap a b i) := by
  unfold col
  have h := swap_cases a b i
  by_cases c : i = 0
  · rw [if_pos c, if_pos (by omega)]
  · rw [if_neg c, if_neg (show ¬ Equiv.swap a b i = 0 by omega)]
    by_cases d : i ≤ npt
    · rw [if_pos d, if_pos (by omega)]
    · rw [if_neg d, if_neg (by omega), show Equiv.swap a b i = i by omega]

theorem Wm_swap (a1 : 1 ≤ a) (a2 : a ≤ npt) (b1 : 1 ≤ b) (b2 : b ≤ npt) (pts : Nat → Nat → K) (i j : Nat) :
    Wm n npt (fun k => pts (Equiv.swap a b k)) i j = Wm n npt pts (Equiv.swap a b i) (Equiv.swap a b j) := by
  unfold Wm
  have hi := swap_cases a b i
  have hj := swap_cases a b j
  by_cases c : 1 ≤ j ∧ j ≤ npt
  · rw [if_pos c, if_pos (by omega), col_swap a1 a2 b1 b2]
  · rw [if_neg c, if_neg (show ¬ (1 ≤ Equiv.swap a b j ∧ Equiv.swap a b j ≤ npt) by omega)]
    by_cases d : 1 ≤ i ∧ i ≤ npt
    · rw [if_pos d, if_pos (by omega), col_swap a1 a2 b1 b2]
    · rw [if_neg d, if_neg (by omega)]

theorem Hm_swap (a1 : 1 ≤ a) (a2 : a ≤ npt) (b1 : 1 ≤ b) (b2 : b ≤ npt) (c : Nat → K) (om bm : Nat → Nat → K) (i j : Nat) :
    Hm npt (fun i => c (Equiv.swap a b i)) (fun i j => om (Equiv.swap a b i) (Equiv.swap a b j)) (fun i => bm (Equiv.swap a b i)) i j
      = Hm npt c om bm (Equiv.swap a b i) (Equiv.swap a b j) := by
  unfold Hm
  have hi := swap_cases a b i
  have hj := swap_cases a b j
  by_cases c1 : i = 0
  · rw [if_pos c1, if_pos (by omega)]
  rw [if_neg c1, if_neg (show ¬ Equiv.swap a b i = 0 by omega)]
  by_cases c2 : j = 0
  · rw [if_pos c2, if_pos (by omega)]
  rw [if_neg c2, if_neg (show ¬ Equiv.swap a b j = 0 by omega)]
  by_cases c3 : i ≤ npt
  · rw [if_pos c3, if_pos (show Equiv.swap a b i ≤ npt by omega)]
    by_cases c4 : j ≤ npt
    · rw [if_pos c4, if_pos (by omega)]
    · rw [if_neg c4, if_neg (by omega), show Equiv.swap a b j = j by omega]
  · rw [if_neg c3, if_neg (show ¬ Equiv.swap a b i ≤ npt by omega)]
    by_cases c4 : j ≤ npt
    · rw [if_pos c4, if_pos (by omega), show Equiv.swap a b i = i by omega]
    · rw [if_neg c4, if_neg (by omega), show Equiv.swap a b j = j by omega]

theorem sum_swap (a1 : 1 ≤ a) (a2 : a ≤ npt) (b1 : 1 ≤ b) (b2 : b ≤ npt) (f : Nat → K) : ∑ k ∈ Idx n npt, f (Equiv.swap a b k) = ∑ k ∈ Idx n npt, f k := by
  refine Finset.sum_equiv (Equiv.swap a b) (fun i => ?_) (fun i _ => rfl)
  have := swap_cases a b i
  rw [Idx, Finset.mem_range, Finset.mem_range]
  omega

/-- Two points are exchanged. -/
theorem Good.swap (a1 : 1 ≤ a) (a2 : a ≤ npt) (b1 : 1 ≤ b) (b2 : b ≤ npt) {pts om bm : Nat → Nat → K} {c : Nat → K} (h : Good n npt pts om bm c) :
    Good n npt (fun k => pts (Equiv.swap a b k)) (fun i j => om (Equiv.swap a b i) (Equiv.swap a b j)) (fun i => bm (Equiv.swap a b i)) (fun i => c (Equiv.swap a b i)) := by
  refine ⟨fun i j => h.sym _ _, fun i j i1 i2 j1 j2 => ?_, fun i hi j hj => ?_⟩
  · have q1 := swap_cases a b (npt + i)
    have q2 := swap_cases a b (npt + j)
    show bm (Equiv.swap a b (npt + i)) j = bm (Equiv.swap a b (npt + j)) i
    rw [show Equiv.swap a b (npt + i) = npt + i by omega, show Equiv.swap a b (npt + j) = npt + j by omega]
    exact h.bsym i j i1 i2 j1 j2
  · have q1 := swap_cases a b i
    have q2 := swap_cases a b j
    rw [Idx, Finset.mem_range] at hi hj
    rw [Finset.sum_congr rfl (g := fun k => Wm n npt pts (Equiv.swap a b i) (Equiv.swap a b k) * Hm npt c om bm (Equiv.swap a b k) (Equiv.swap a b j))
      (fun k _ => by rw [Wm_swap a1 a2 b1 b2, Hm_swap a1 a2 b1 b2]),
      sum_swap a1 a2 b1 b2 (fun k => Wm n npt pts (Equiv.swap a b i) k * Hm npt c om bm k (Equiv.swap a b j)),
      h.inv _ (by rw [Idx, Finset.mem_range]; omega) _ (by rw [Idx, Finset.mem_range]; omega)]
    exact if_congr ((Equiv.swap a b).injective.eq_iff) rfl rfl

theorem hcolumn_swap {p : Par K} {s s' : St K} (a1 : 1 ≤ a) (a2 : a ≤ p.npt) (b1 : 1 ≤ b) (b2 : b ≤ p.npt) (e1 : s'.xpt = fun k => s.xpt (Equiv.swap a b k))
    (e2 : s'.zmat = fun k => s.zmat (Equiv.swap a b k)) (e3 : s'.bmat = fun k => s.bmat (Equiv.swap a b k)) (c x : Nat → K) (i : Nat) :
    hcolumn p.nw s'.nw (fun i => c (Equiv.swap a b i)) x i = hcolumn p.nw s.nw c x (Equiv.swap a b i) := by
  unfold Newuoa.hcolumn
  rw [← sum_swap (n := p.nw.n) (npt := p.nw.npt) a1 a2 b1 b2 (fun k => Hm p.nw.npt c (omega p.nw.nptm s.nw.zmat) s.nw.bmat (Equiv.swap a b i) k * col p.nw.n p.nw.npt s.nw.xpt x k)]
  refine Finset.sum_congr rfl fun k _ => ?_
  show Hm p.npt _ (omega p.nptm s'.zmat) s'.bmat i k * col p.n p.npt s'.xpt x k = Hm p.npt c (omega p.nptm s.zmat) s.bmat (Equiv.swap a b i) (Equiv.swap a b k) * col p.n p.npt s.xpt x (Equiv.swap a b k)
  rw [e1, e2, e3, col_swap a1 a2 b1 b2, ← Hm_swap a1 a2 b1 b2]
  rfl

theorem betaOf_swap {p : Par K} {s s' : St K} (a1 : 1 ≤ a) (a2 : a ≤ p.npt) (b1 : 1 ≤ b) (b2 : b ≤ p.npt) (e1 : s'.xpt = fun k => s.xpt (Equiv.swap a b k))
    (e2 : s'.zmat = fun k => s.zmat (Equiv.swap a b k)) (e3 : s'.bmat = fun k => s.bmat (Equiv.swap a b k)) (c x : Nat → K) :
    betaOf p.nw s'.nw (fun i => c (Equiv.swap a b i)) x = betaOf p.nw s.nw c x := by
  unfold Newuoa.betaOf
  congr 1
  rw [← sum_swap (n := p.nw.n) (npt := p.nw.npt) a1 a2 b1 b2 (fun k => col p.nw.n p.nw.npt s.nw.xpt x k * hcolumn p.nw s.nw c x k)]
  refine Finset.sum_congr rfl fun k _ => ?_
  rw [hcolumn_swap a1 a2 b1 b2 e1 e2 e3]
  congr 1
  show col p.n p.npt s'.xpt x k = col p.n p.npt s.xpt x (Equiv.swap a b k)
  rw [e1, col_swap a1 a2 b1 b2]

theorem swapRows_eq (m : Nat → Nat → K) (a b : Nat) : swapRows m a b = fun k => m (Equiv.swap a b k) := by
  funext i j
  unfold swapRows
  rcases swap_cases a b i with ⟨h1, h2, h3⟩ | ⟨h1, h2⟩ | ⟨h1, h2⟩
  · rw [if_neg h3, if_neg h2, h1]
  · by_cases e : i = b
    · rw [if_pos e, h2, ← h1, e]
    · rw [if_neg e, if_pos h1, h2]
  · rw [if_pos h1, h2]

end swap

/-! ### The first provisional points -/

theorem auxPair_ne (delta sl su : K) (hd : 0 < delta) (h1 : sl ≤ 0) (h2 : 0 ≤ su) (h3 : sl < su) :
    (auxPair delta sl su).1 ≠ 0 ∧ (auxPair delta sl su).2 ≠ 0 ∧ (auxPair delta sl su).1 - (auxPair delta sl su).2 ≠ 0 := by
  have a1 : 0 ≤ min delta su := le_min hd.le h2
  have b1 : max (-delta) sl ≤ 0 := max_le (by linarith) h1
  have ne : min delta su - max (-delta) sl > 0 := by
    rcases lt_or_eq_of_le h2 with c | c
    · have : 0 < min delta su := lt_min hd c
      linarith
    · have : max (-delta) sl < 0 := max_lt (by linarith) (by linarith)
      linarith
  have half : (lit 1 2 : K) = 1 / 2 := lit_half
  unfold auxPair
  dsimp only
  rw [cmin_eq, cmax_eq, half, ExactMath.fabs_eq, ExactMath.fabs_eq]
  generalize min delta su = u at *
  generalize max (-delta) sl = v at *
  by_cases h : u + v < 0
  · rw [if_pos h]
    dsimp only
    rw [abs_of_nonneg a1, abs_of_nonpos b1]
    have : v < 0 := by linarith
    refine ⟨this.ne, ?_⟩
    split_ifs with c
    · exact ⟨by intro q; linarith, by intro q; linarith⟩
    · exact ⟨by intro q; linarith, by intro q; linarith⟩
  · rw [if_neg h]
    dsimp only
    rw [abs_of_nonneg a1, abs_of_nonpos b1]
    have : 0 < u := by linarith
    refine ⟨this.ne', ?_⟩
    split_ifs with c
    · exact ⟨by intro q; linarith, by intro q; linarith⟩
    · exact ⟨by intro q; linarith, by intro q; linarith⟩

/-- The indices of a provisional point are those of the first points. -/
theorem rescuePair_eq {p : Par K} (k : Nat) : rescuePair p k = prelimPair p k ∨ rescuePair p k = ((prelimPair p k).2, (prelimPair p k).1) := by
  unfold rescuePair prelimPair
  dsimp only
  have e : k - 1 - p.np = k - p.np - 1 := by omega
  have hnp : p.np = p.n + 1 := rfl
  rw [e]
  generalize (k - p.np - 1) / p.n = iw
  have e2 : k - 1 - iw * p.n - p.n = k - p.np - iw * p.n := by
    rw [hnp]
    generalize iw * p.n = q
    omega
  rw [e2]
  generalize k - p.np - iw * p.n = ip
  by_cases c : ip + iw > p.n
  · rw [if_pos c, if_pos c]; exact Or.inl rfl
  · rw [if_neg c, if_neg c]; exact Or.inr rfl

theorem rescueB_eq {p : Par K} (n1 : 1 ≤ p.n) (hn : p.n + 2 ≤ p.npt) (a1 a2 : Nat → K) {l : Nat} (l1 : 1 ≤ l) (l2 : l ≤ p.n) (k : Nat) :
    rescueB p a1 a2 k l = if 1 + p.n + l ≤ p.npt then
        (1 / a1 l - 1 / (a1 l - a2 l)) * del k (1 + l) + (1 / a2 l + 1 / (a1 l - a2 l)) * del k (1 + p.n + l) - (1 / a1 l + 1 / a2 l) * del k 1
      else 1 / a1 l * (del k (1 + l) - del k 1) - 1 / 2 * (a1 l * a1 l) * del k (p.npt + l) := by
  have key := up_inv (body := fun j (bmat : Nat → Nat → K) =>
      let temp1 := a1 j
      let temp2 := a2 j
      let jp := j + 1
      let jpn := jp + p.n
      if jpn ≤ p.npt then
        let temp := 1 / (temp1 - temp2)
        let bmat := set2 bmat jp j (1 / temp1 - temp)
        let bmat := set2 bmat jpn j (1 / temp2 + temp)
        set2 bmat 1 j (-bmat jp j - bmat jpn j)
      else
        let temp := 1 / temp1
        let bmat := set2 bmat 1 j (-temp)
        let bmat := set2 bmat jp j temp
        set2 bmat (j + p.npt) j (-lit 1 2 * (temp1 * temp1))) (s := fun _ _ => 0)
    (fun m (b : Nat → Nat → K) => ∀ k l, 1 ≤ l → b k l = if l ≤ m then (if 1 + p.n + l ≤ p.npt then
        (1 / a1 l - 1 / (a1 l - a2 l)) * del k (1 + l) + (1 / a2 l + 1 / (a1 l - a2 l)) * del k (1 + p.n + l) - (1 / a1 l + 1 / a2 l) * del k 1
      else 1 / a1 l * (del k (1 + l) - del k 1) - 1 / 2 * (a1 l * a1 l) * del k (p.npt + l)) else 0) p.n
    (fun k l l1 => by rw [if_neg (by omega)]) (by
      intro m hm b hb k l l1
      dsimp only
      have half : (lit 1 2 : K) = 1 / 2 := lit_half
      by_cases e : l = m + 1
      · subst e
        have z : b k (m + 1) = 0 := by rw [hb k (m + 1) l1, if_neg (by omega)]
        rw [if_pos (le_refl _)]
        by_cases c : 1 + p.n + (m + 1) ≤ p.npt
        · rw [if_pos (show m + 1 + 1 + p.n ≤ p.npt by omega), if_pos c]
          unfold set2
          by_cases q1 : k = 1
          · subst q1
            rw [if_pos ⟨rfl, rfl⟩, if_neg (by omega), if_pos ⟨rfl, rfl⟩, if_pos ⟨rfl, rfl⟩, del_self, del_ne (by omega), del_ne (by omega)]; ring
          · rw [if_neg (by omega), del_ne q1]
            by_cases q2 : k = 1 + p.n + (m + 1)
            · rw [if_pos (by omega), q2, del_self, del_ne (by omega)]; ring
            · rw [if_neg (by omega), del_ne q2]
              by_cases q3 : k = 1 + (m + 1)
              · rw [if_pos (by omega), q3, del_self]; ring
              · rw [if_neg (by omega), del_ne q3, z]; ring
        · rw [if_neg (show ¬ m + 1 + 1 + p.n ≤ p.npt by omega), if_neg c]
          unfold set2
          by_cases q1 : k = p.npt + (m + 1)
          · rw [if_pos (by omega), q1, del_self, del_ne (by omega), del_ne (by omega), half]; ring
          · rw [if_neg (by omega), del_ne q1]
            by_cases q2 : k = 1 + (m + 1)
            · rw [if_pos (by omega), q2, del_self, del_ne (by omega)]; ring
            · rw [if_neg (by omega), del_ne q2]
              by_cases q3 : k = 1
              · rw [if_pos (by omega), q3, del_self]; ring
              · rw [if_neg (by omega), del_ne q3, z]; ring
      · have same : ∀ (b : Nat → Nat → K) i v, set2 b i (m + 1) v k l = b k l := fun b i v => by unfold set2; rw [if_neg (fun w => e w.2)]
        have e3 : (l ≤ m + 1) = (l ≤ m) := by apply propext; omega
        simp only [e3]
        rw [← hb k l l1]
        by_cases c : m + 1 + 1 + p.n ≤ p.npt
        · rw [if_pos c, same, same, same]
        · rw [if_neg c, same, same, same])
  have := key k l l1
  rw [if_pos l2] at this
  exact this

/-- The columns of `ZMAT` for the axes. -/
theorem rescueZ1_eq {p : Par K} (n1 : 1 ≤ p.n) (a1 a2 : Nat → K) (k : Nat) {l : Nat} (l1 : 1 ≤ l) :
    up p.n (fun j (zmat : Nat → Nat → K) =>
    let temp1 := a1 j
    let temp2 := a2 j
    let jp := j + 1
    let jpn := jp + p.n
    if jpn ≤ p.npt then
      let temp := 1 / (temp1 - temp2)
      let zmat := set2 zmat 1 j (sqrt (lit 2 1) / fabs (temp1 * temp2))
      let temp := temp * zmat 1 j
      let zmat := set2 zmat jp j (temp * temp2)
      set2 zmat jpn j (-temp * temp1)
    else zmat) (fun _ _ => 0) k l = if l ≤ p.n ∧ 1 + p.n + l ≤ p.npt then
        sqrt (lit 2 1) / |a1 l * a2 l| * (del k 1 + a2 l / (a1 l - a2 l) * del k (1 + l) - a1 l / (a1 l - a2 l) * del k (1 + p.n + l)) else 0 := by
  refine up_inv (P := fun m (z : Nat → Nat → K) => ∀ k l, 1 ≤ l → z k l = if l ≤ m ∧ 1 + p.n + l ≤ p.npt then
        sqrt (lit 2 1) / |a1 l * a2 l| * (del k 1 + a2 l / (a1 l - a2 l) * del k (1 + l) - a1 l / (a1 l - a2 l) * del k (1 + p.n + l)) else 0) p.n
    (fun k l l1 => by rw [if_neg (by omega)]) ?_ k l l1
  intro m hm b hb k l l1
  dsimp only
  by_cases e : l = m + 1
  · subst e
    have z : b k (m + 1) = 0 := by rw [hb k (m + 1) l1, if_neg (by omega)]
    by_cases c : m + 1 + 1 + p.n ≤ p.npt
    · rw [if_pos c, if_pos (show m + 1 ≤ m + 1 ∧ 1 + p.n + (m + 1) ≤ p.npt by omega), ExactMath.fabs_eq]
      unfold set2
      rw [if_pos (show 1 = 1 ∧ m + 1 = m + 1 from ⟨rfl, rfl⟩)]
      by_cases q1 : k = 1 + p.n + (m + 1)
      · rw [if_pos (by omega), q1, del_self, del_ne (by omega), del_ne (by omega)]; ring
      · rw [if_neg (by omega), del_ne q1]
        by_cases q2 : k = 1 + (m + 1)
        · rw [if_pos (by omega), q2, del_self, del_ne (by omega)]; ring
        · rw [if_neg (by omega), del_ne q2]
          by_cases q3 : k = 1
          · rw [if_pos (by omega), q3, del_self]; ring
          · rw [if_neg (by omega), del_ne q3, z]; ring
    · rw [if_neg c, if_neg (by omega), z]
  · have same : ∀ (b : Nat → Nat → K) i v, set2 b i (m + 1) v k l = b k l := fun b i v => by unfold set2; rw [if_neg (fun w => e w.2)]
    have e3 : (l ≤ m + 1) = (l ≤ m) := by apply propext; omega
    simp only [e3]
    rw [← hb k l l1]
    by_cases c : m + 1 + 1 + p.n ≤ p.npt
    · rw [if_pos c, same, same, same]
    · rw [if_neg c]

theorem rescueZ_eq {p : Par K} (hp : Newuoa.Valid p.nw) (a1 a2 : Nat → K) (k : Nat) {l : Nat} (l1 : 1 ≤ l) (l2 : l ≤ p.nptm) :
    rescueZ p a1 a2 k l = if l ≤ p.n then
        sqrt (lit 2 1) / |a1 l * a2 l| * (del k 1 + a2 l / (a1 l - a2 l) * del k (1 + l) - a1 l / (a1 l - a2 l) * del k (1 + p.n + l))
      else 1 / (a1 (prelimPair p (1 + p.n + l)).1 * a1 (prelimPair p (1 + p.n + l)).2) *
        (del k 1 + del k (1 + p.n + l) - del k (1 + (prelimPair p (1 + p.n + l)).1) - del k (1 + (prelimPair p (1 + p.n + l)).2)) := by
  have n1 : 1 ≤ p.n := hp.n1
  have nm := nptm_eq hp
  have hnp : p.np = p.n + 1 := rfl
  have key := up_inv (body := fun l (zmat : Nat → Nat → K) =>
    let k := 2 * p.np - 1 + l
    let ip := (rescuePair p k).1
    let iq := (rescuePair p k).2
    let temp := 1 / (a1 ip * a1 iq)
    let zmat := set2 zmat 1 (k - p.np) temp
    let zmat := set2 zmat (ip + 1) (k - p.np) (-temp)
    let zmat := set2 zmat (iq + 1) (k - p.np) (-temp)
    set2 zmat k (k - p.np) temp) (s := up p.n (fun j (zmat : Nat → Nat → K) =>
    let temp1 := a1 j
    let temp2 := a2 j
    let jp := j + 1
    let jpn := jp + p.n
    if jpn ≤ p.npt then
      let temp := 1 / (temp1 - temp2)
      let zmat := set2 zmat 1 j (sqrt (lit 2 1) / fabs (temp1 * temp2))
      let temp := temp * zmat 1 j
      let zmat := set2 zmat jp j (temp * temp2)
      set2 zmat jpn j (-temp * temp1)
    else zmat) (fun _ _ => 0))
    (fun m (z : Nat → Nat → K) => ∀ k l, 1 ≤ l → l ≤ p.nptm → z k l = if l ≤ p.n then
        sqrt (lit 2 1) / |a1 l * a2 l| * (del k 1 + a2 l / (a1 l - a2 l) * del k (1 + l) - a1 l / (a1 l - a2 l) * del k (1 + p.n + l))
      else if l ≤ p.n + m then 1 / (a1 (prelimPair p (1 + p.n + l)).1 * a1 (prelimPair p (1 + p.n + l)).2) *
        (del k 1 + del k (1 + p.n + l) - del k (1 + (prelimPair p (1 + p.n + l)).1) - del k (1 + (prelimPair p (1 + p.n + l)).2)) else 0) (p.npt - (2 * p.np - 1))
    (fun k l l1 l2 => by
      rw [rescueZ1_eq n1 a1 a2 k l1]
      by_cases c : l ≤ p.n
      · rw [if_pos c, if_pos (by omega)]
      · rw [if_neg c, if_neg (by omega), if_neg (by omega)]) (by
      intro m hm b hb k l l1 l2
      dsimp only
      have ec : 2 * p.np - 1 + (m + 1) - p.np = p.n + (m + 1) := by omega
      rw [ec]
      by_cases e : l = p.n + (m + 1)
      · have z : b k (p.n + (m + 1)) = 0 := by rw [hb k _ (by omega) (by omega), if_neg (by omega), if_neg (by omega)]
        rw [if_neg (show ¬ l ≤ p.n by omega), if_pos (show l ≤ p.n + (m + 1) by omega)]
        have ek : 2 * p.np - 1 + (m + 1) = 1 + p.n + l := by omega
        obtain ⟨s1, s2, s3⟩ := Newuoa.pair_spec hp (nf := 1 + p.n + l) (by show 2 * p.n + 1 < _; omega) (by show _ ≤ p.npt; omega)
        rw [← prelimPair_eq] at s1 s2 s3
        have s3 : (prelimPair p (1 + p.n + l)).1 ≤ p.n := s3
        rw [ek, ← e]
        rw [← e] at z
        unfold set2
        rcases rescuePair_eq (p := p) (1 + p.n + l) with q | q
        · rw [q]
          generalize (prelimPair p (1 + p.n + l)).1 = x1 at *
          generalize (prelimPair p (1 + p.n + l)).2 = x2 at *
          by_cases q1 : k = 1 + p.n + l
          · rw [if_pos ⟨q1, rfl⟩, q1, del_self, del_ne (by omega), del_ne (by omega), del_ne (by omega)]; ring
          · rw [if_neg (fun w => q1 w.1), del_ne q1]
            by_cases q2 : k = 1 + x2
            · rw [if_pos (by omega), q2, del_self, del_ne (by omega), del_ne (by omega)]; ring
            · rw [if_neg (by omega), del_ne q2]
              by_cases q3 : k = 1 + x1
              · rw [if_pos (by omega), q3, del_self, del_ne (by omega)]; ring
              · rw [if_neg (by omega), del_ne q3]
                by_cases q4 : k = 1
                · rw [if_pos (by omega), q4, del_self]; ring
                · rw [if_neg (by omega), del_ne q4, z]; ring
        · rw [q]
          generalize (prelimPair p (1 + p.n + l)).1 = x1 at *
          generalize (prelimPair p (1 + p.n + l)).2 = x2 at *
          rw [mul_comm (a1 x2)]
          by_cases q1 : k = 1 + p.n + l
          · rw [if_pos ⟨q1, rfl⟩, q1, del_self, del_ne (by omega), del_ne (by omega), del_ne (by omega)]; ring
          · rw [if_neg (fun w => q1 w.1), del_ne q1]
            by_cases q2 : k = 1 + x1
            · rw [if_pos (by omega), q2, del_self, del_ne (by omega), del_ne (by omega)]; ring
            · rw [if_neg (by omega), del_ne q2]
              by_cases q3 : k = 1 + x2
              · rw [if_pos (by omega), q3, del_self, del_ne (by omega)]; ring
              · rw [if_neg (by omega), del_ne q3]
                by_cases q4 : k = 1
                · rw [if_pos (by omega), q4, del_self]; ring
                · rw [if_neg (by omega), del_ne q4, z]; ring
      · have same : ∀ (b : Nat → Nat → K) i v, set2 b i (p.n + (m + 1)) v k l = b k l := fun b i v => by unfold set2; rw [if_neg (fun w => e w.2)]
        have e3 : (l ≤ p.n + (m + 1)) = (l ≤ p.n + m) := by apply propext; omega
        simp only [e3]
        rw [← hb k l l1 l2, same, same, same, same])
  have := key k l l1 l2
  by_cases c : l ≤ p.n
  · rw [if_pos c] at this ⊢; exact this
  · rw [if_neg c, if_pos (by omega)] at this
    rw [if_neg c]; exact this

/-- The point of a provisional index. -/
def provPoint (a1 a2 : Nat → K) (id : Nat × Nat) : Nat → K := fun j =>
  (if id.1 = 0 then 0 else a1 id.1 * del j id.1) + (if id.2 = 0 then 0 else (if id.1 = 0 then a2 id.2 else a1 id.2) * del j id.2)

theorem provPoint_none (a1 a2 : Nat → K) (j : Nat) : provPoint a1 a2 (0, 0) j = 0 := by
  unfold provPoint
  dsimp only
  rw [if_pos rfl, if_pos rfl, add_zero]

theorem provPoint_one (a1 a2 : Nat → K) {a : Nat} (ha : a ≠ 0) (j : Nat) : provPoint a1 a2 (a, 0) j = a1 a * del j a := by
  unfold provPoint
  dsimp only
  rw [if_neg ha, if_pos rfl, add_zero]

theorem provPoint_two (a1 a2 : Nat → K) {b : Nat} (hb : b ≠ 0) (j : Nat) : provPoint a1 a2 (0, b) j = a2 b * del j b := by
  unfold provPoint
  dsimp only
  rw [if_pos rfl, if_neg hb, if_pos rfl, zero_add]

theorem provPoint_both (a1 a2 : Nat → K) {a b : Nat} (ha : a ≠ 0) (hb : b ≠ 0) (j : Nat) : provPoint a1 a2 (a, b) j = a1 a * del j a + a1 b * del j b := by
  unfold provPoint
  dsimp only
  rw [if_neg ha, if_neg hb, if_neg ha]

/-- An index of a provisional point. -/
def IsId (p : Par K) (id : Nat × Nat) : Prop := (id.1 = 0 ∧ 1 ≤ id.2 ∧ id.2 ≤ p.n) ∨ (1 ≤ id.1 ∧ id.1 ≤ p.n ∧ id.2 ≤ p.n ∧ id.1 ≠ id.2)

theorem rescuePoint_eq (s : St K) {id : Nat × Nat} (h : id.1 = 0 ∨ id.1 ≠ id.2) : rescuePoint s id = provPoint s.res.aux1 s.res.aux2 id := by
  obtain ⟨a, b⟩ := id
  funext j
  unfold rescuePoint set1
  dsimp only at h ⊢
  by_cases ha : a = 0
  · subst ha
    by_cases hb : b = 0
    · subst hb
      rw [provPoint_none, if_neg (lt_irrefl 0), if_neg (lt_irrefl 0)]
    · rw [provPoint_two _ _ hb, if_pos (show b > 0 by omega), if_neg (lt_irrefl 0)]
      by_cases q : j = b
      · rw [if_pos q, if_neg (show ¬ (0 : Nat) ≠ 0 by omega), q, del_self, mul_one]
      · rw [if_neg q, del_ne q, mul_zero]
  · by_cases hb : b = 0
    · subst hb
      rw [provPoint_one _ _ ha, if_neg (lt_irrefl 0), if_pos (show a > 0 by omega)]
      by_cases q : j = a
      · rw [if_pos q, q, del_self, mul_one]
      · rw [if_neg q, del_ne q, mul_zero]
    · rw [provPoint_both _ _ ha hb, if_pos (show b > 0 by omega), if_pos (show a > 0 by omega)]
      by_cases q : j = b
      · rw [if_pos q, if_pos ha, q, del_self, del_ne (by omega)]; ring
      · rw [if_neg q, del_ne q]
        by_cases w : j = a
        · rw [if_pos w, w, del_self]; ring
        · rw [if_neg w, del_ne w]; ring

/-- The indices of the first provisional points. -/
theorem rescueId_spec {p : Par K} (hp : Newuoa.Valid p.nw) {k : Nat} (k1 : 2 ≤ k) (k2 : k ≤ p.npt) : ∃ id, rescueId p k = some id ∧ IsId p id := by
  have n1 : 1 ≤ p.n := hp.n1
  have hnp : p.np = p.n + 1 := rfl
  unfold rescueId
  rw [if_neg (by omega)]
  by_cases c1 : k ≤ p.np
  · rw [if_pos c1]
    exact ⟨_, rfl, Or.inr ⟨by show 1 ≤ k - 1; omega, by show k - 1 ≤ p.n; omega, Nat.zero_le _, by show k - 1 ≠ 0; omega⟩⟩
  · rw [if_neg c1]
    by_cases c2 : k ≤ p.np + p.n
    · rw [if_pos c2]
      exact ⟨_, rfl, Or.inl ⟨rfl, by show 1 ≤ k - p.np; omega, by show k - p.np ≤ p.n; omega⟩⟩
    · rw [if_neg c2]
      refine ⟨_, rfl, Or.inr ?_⟩
      obtain ⟨s1, s2, s3⟩ := Newuoa.pair_spec hp (nf := k) (by show 2 * p.n + 1 < _; omega) k2
      rw [← prelimPair_eq] at s1 s2 s3
      have s3 : (prelimPair p k).1 ≤ p.n := s3
      rcases rescuePair_eq (p := p) k with q | q
      · rw [q]; omega
      · rw [q]; dsimp only; omega

/-- The first provisional points. -/
def provFirst (p : Par K) (a1 a2 : Nat → K) (k : Nat) : Nat → K := provPoint a1 a2 ((rescueId p k).getD (0, 0))

theorem provFirst_one (p : Par K) (a1 a2 : Nat → K) (j : Nat) : provFirst p a1 a2 1 j = 0 := by
  show provPoint a1 a2 (((if 1 = 1 then some (0, 0) else _ : Option (Nat × Nat))).getD (0, 0)) j = 0
  rw [if_pos rfl]
  exact provPoint_none a1 a2 j

theorem provFirst_axis {p : Par K} (a1 a2 : Nat → K) {l : Nat} (l1 : 1 ≤ l) (l2 : l ≤ p.n) (j : Nat) : provFirst p a1 a2 (1 + l) j = a1 l * del j l := by
  have hnp : p.np = p.n + 1 := rfl
  have e : rescueId p (1 + l) = some (l, 0) := by
    unfold rescueId
    rw [if_neg (by omega), if_pos (by omega), show 1 + l - 1 = l by omega]
  unfold provFirst
  rw [e]
  exact provPoint_one a1 a2 (by omega) j

theorem provFirst_axis' {p : Par K} (a1 a2 : Nat → K) {l : Nat} (l1 : 1 ≤ l) (l2 : l ≤ p.n) (j : Nat) : provFirst p a1 a2 (1 + p.n + l) j = a2 l * del j l := by
  have hnp : p.np = p.n + 1 := rfl
  have e : rescueId p (1 + p.n + l) = some (0, l) := by
    unfold rescueId
    rw [if_neg (by omega), if_neg (by omega), if_pos (by omega), show 1 + p.n + l - p.np = l by omega]
  unfold provFirst
  rw [e]
  exact provPoint_two a1 a2 (by omega) j

theorem provFirst_pair {p : Par K} (hp : Newuoa.Valid p.nw) (a1 a2 : Nat → K) {l : Nat} (l1 : p.n < l) (l2 : l ≤ p.nptm) (j : Nat) :
    provFirst p a1 a2 (1 + p.n + l) j = provFirst p a1 a2 (1 + (prelimPair p (1 + p.n + l)).1) j + provFirst p a1 a2 (1 + (prelimPair p (1 + p.n + l)).2) j := by
  have n1 : 1 ≤ p.n := hp.n1
  have nm := nptm_eq hp
  have hnp : p.np = p.n + 1 := rfl
  obtain ⟨s1, s2, s3⟩ := Newuoa.pair_spec hp (nf := 1 + p.n + l) (by show 2 * p.n + 1 < _; omega) (by show _ ≤ p.npt; omega)
  rw [← prelimPair_eq] at s1 s2 s3
  have s3 : (prelimPair p (1 + p.n + l)).1 ≤ p.n := s3
  have e : rescueId p (1 + p.n + l) = some (rescuePair p (1 + p.n + l)) := by
    unfold rescueId
    rw [if_neg (by omega), if_neg (by omega), if_neg (by omega)]
  rw [provFirst_axis a1 a2 (by omega) s3, provFirst_axis a1 a2 s1 (by omega)]
  unfold provFirst
  rw [e]
  rcases rescuePair_eq (p := p) (1 + p.n + l) with q | q
  · rw [q]
    exact provPoint_both a1 a2 (show (prelimPair p (1 + p.n + l)).1 ≠ 0 by omega) (show (prelimPair p (1 + p.n + l)).2 ≠ 0 by omega) j
  · rw [q, add_comm (a1 _ * _)]
    exact provPoint_both a1 a2 (show (prelimPair p (1 + p.n + l)).2 ≠ 0 by omega) (show (prelimPair p (1 + p.n + l)).1 ≠ 0 by omega) j

/-- The arrays of the first provisional points hold the inverse matrix. -/
theorem rescue_first (hsqrt : ∀ a : K, 0 ≤ a → 0 ≤ CMath.sqrt a ∧ CMath.sqrt a * CMath.sqrt a = a) {p : Par K} (hp : Newuoa.Valid p.nw) (a1 a2 : Nat → K)
    (h1 : ∀ l, 1 ≤ l → l ≤ p.n → a1 l ≠ 0 ∧ a2 l ≠ 0 ∧ a1 l - a2 l ≠ 0) :
    Good p.n p.npt (provFirst p a1 a2) (omega p.nptm (rescueZ p a1 a2)) (rescueB p a1 a2) (fun i => del i 1) := by
  have n1 : 1 ≤ p.n := hp.n1
  have nm := nptm_eq hp
  have hlow : p.n + 2 ≤ p.npt := hp.lo
  have two : (lit 2 1 : K) = 2 := by rw [lit_rat]; norm_num
  have spec : ∀ l, p.n < l → l ≤ p.nptm → 1 ≤ (prelimPair p (1 + p.n + l)).2 ∧ (prelimPair p (1 + p.n + l)).2 < (prelimPair p (1 + p.n + l)).1 ∧ (prelimPair p (1 + p.n + l)).1 ≤ p.n := by
    intro l l1 l2
    exact Newuoa.pair_spec hp (nf := 1 + p.n + l) (by show 2 * p.n + 1 < _; omega) (by show _ ≤ p.npt; omega)
  have sg : ∀ x : K, x ≠ 0 → ∃ t : K, t * t = 1 ∧ |x| = t * x := by
    intro x hx
    rcases lt_or_gt_of_ne hx with c | c
    · exact ⟨-1, by ring, by rw [abs_of_neg c]; ring⟩
    · exact ⟨1, by ring, by rw [abs_of_pos c]; ring⟩
  have hsg : ∀ l, ∃ t : K, t * t = 1 ∧ (1 ≤ l → l ≤ p.n → |a1 l * a2 l| = t * (a1 l * a2 l)) := by
    intro l
    by_cases c : 1 ≤ l ∧ l ≤ p.n
    · obtain ⟨q1, q2, q3⟩ := h1 l c.1 c.2
      obtain ⟨t, t1, t2⟩ := sg _ (mul_ne_zero q1 q2)
      exact ⟨t, t1, fun _ _ => t2⟩
    · exact ⟨1, by ring, fun x y => absurd ⟨x, y⟩ c⟩
  choose t t1 t2 using hsg
  have ax : Axes p.n p.nptm p.npt (sqrt (lit 2 1)) a1 a2 (fun l => 1 / (a1 (prelimPair p (1 + p.n + l)).1 * a1 (prelimPair p (1 + p.n + l)).2)) (provFirst p a1 a2)
      (fun k l => if l ≤ p.n then t l * rescueZ p a1 a2 k l else rescueZ p a1 a2 k l) (rescueB p a1 a2)
      (fun l => (prelimPair p (1 + p.n + l)).1) (fun l => (prelimPair p (1 + p.n + l)).2) := by
    refine ⟨nm, ?_, fun l l1 l2 => (h1 l l1 l2).1, fun l l1 l2 _ => (h1 l l1 l2).2.1, fun l l1 l2 _ => (h1 l l1 l2).2.2,
      fun j _ _ => provFirst_one p a1 a2 j, fun l j l1 l2 _ _ => provFirst_axis a1 a2 l1 l2 j, fun l j l1 l2 _ _ _ => provFirst_axis' a1 a2 l1 l2 j,
      fun l j l1 l2 _ _ => provFirst_pair hp a1 a2 l1 l2 j,
      fun l l1 l2 => ?_, fun l l1 l2 => ?_, fun l l1 l2 => ?_, fun l i l1 l2 i1 i2 => ?_, fun l l1 l2 => ?_, fun k l _ _ l1 l2 l3 => ?_,
      fun k l _ _ l1 l2 => ?_, fun k l k1 k2 l1 l2 l3 => ?_, fun k l k1 k2 l1 l2 => ?_, fun i l i1 i2 l1 l2 => ?_⟩
    · rw [two]; exact (hsqrt 2 (by norm_num)).2
    · obtain ⟨q1, q2, q3⟩ := spec l l1 l2; exact ⟨by omega, q3⟩
    · obtain ⟨q1, q2, q3⟩ := spec l l1 l2; exact ⟨q1, by omega⟩
    · obtain ⟨q1, q2, q3⟩ := spec l l1 l2; omega
    · obtain ⟨q1, q2, q3⟩ := spec l l1 l2
      by_cases c0 : i = 1
      · rw [c0, provFirst_one, del_ne (by omega)]; ring
      by_cases c1 : i ≤ p.n + 1
      · obtain ⟨t, rfl⟩ : ∃ t, i = 1 + t := ⟨i - 1, by omega⟩
        rw [provFirst_axis a1 a2 (by omega) (by omega), provFirst_axis a1 a2 (by omega) (by omega), del_ne (show 1 + t ≠ 1 + p.n + l by omega)]
        by_cases e : (prelimPair p (1 + p.n + l)).1 = t
        · rw [del_ne (show (prelimPair p (1 + p.n + l)).2 ≠ t by omega)]; ring
        · rw [del_ne e]; ring
      by_cases c2 : i ≤ 2 * p.n + 1
      · obtain ⟨t, rfl⟩ : ∃ t, i = 1 + p.n + t := ⟨i - 1 - p.n, by omega⟩
        rw [provFirst_axis' a1 a2 (by omega) (by omega), provFirst_axis' a1 a2 (by omega) (by omega), del_ne (show 1 + p.n + t ≠ 1 + p.n + l by omega)]
        by_cases e : (prelimPair p (1 + p.n + l)).1 = t
        · rw [del_ne (show (prelimPair p (1 + p.n + l)).2 ≠ t by omega)]; ring
        · rw [del_ne e]; ring
      · obtain ⟨l', rfl⟩ : ∃ t, i = 1 + p.n + t := ⟨i - 1 - p.n, by omega⟩
        obtain ⟨r1, r2, r3⟩ := spec l' (by omega) (by omega)
        rw [provFirst_pair hp a1 a2 (by omega) (by omega), provFirst_pair hp a1 a2 (l := l') (by omega) (by omega) (prelimPair p (1 + p.n + l)).2,
          provFirst_axis a1 a2 (l := (prelimPair p (1 + p.n + l')).1) (by omega) r3, provFirst_axis a1 a2 (l := (prelimPair p (1 + p.n + l')).2) r1 (by omega),
          provFirst_axis a1 a2 (l := (prelimPair p (1 + p.n + l')).1) (by omega) r3 (prelimPair p (1 + p.n + l)).2, provFirst_axis a1 a2 (l := (prelimPair p (1 + p.n + l')).2) r1 (by omega) (prelimPair p (1 + p.n + l)).2]
        by_cases el : l' = l
        · subst el
          rw [del_self, del_self, del_self, del_ne (show (prelimPair p (1 + p.n + l')).1 ≠ (prelimPair p (1 + p.n + l')).2 by omega),
            del_ne (show (prelimPair p (1 + p.n + l')).2 ≠ (prelimPair p (1 + p.n + l')).1 by omega)]; ring
        · rw [del_ne (show 1 + p.n + l' ≠ 1 + p.n + l by omega)]
          have ne : ¬((prelimPair p (1 + p.n + l)).1 = (prelimPair p (1 + p.n + l')).1 ∧ (prelimPair p (1 + p.n + l)).2 = (prelimPair p (1 + p.n + l')).2) := by
            intro w
            have := Newuoa.pair_inj hp (a := 1 + p.n + l) (b := 1 + p.n + l') (by show 2 * p.n + 1 < _; omega) (by show _ ≤ p.npt; omega) (by show 2 * p.n + 1 < _; omega)
              (by show _ ≤ p.npt; omega) (Prod.ext w.1 w.2)
            omega
          generalize (prelimPair p (1 + p.n + l)).1 = x1 at *
          generalize (prelimPair p (1 + p.n + l)).2 = x2 at *
          generalize (prelimPair p (1 + p.n + l')).1 = y1 at *
          generalize (prelimPair p (1 + p.n + l')).2 = y2 at *
          by_cases w1 : x1 = y1
          · rw [del_ne (show x2 ≠ y1 by omega), del_ne (show x2 ≠ y2 by omega)]; ring
          · by_cases w2 : x1 = y2
            · rw [del_ne (show x2 ≠ y1 by omega), del_ne (show x2 ≠ y2 by omega)]; ring
            · rw [del_ne w1, del_ne w2]; ring
    · obtain ⟨q1, q2, q3⟩ := spec l l1 l2
      have e1 := (h1 (prelimPair p (1 + p.n + l)).1 (by omega) q3).1
      have e2 := (h1 (prelimPair p (1 + p.n + l)).2 q1 (by omega)).1
      generalize a1 (prelimPair p (1 + p.n + l)).1 = s at *
      generalize a1 (prelimPair p (1 + p.n + l)).2 = t at *
      field_simp
    · obtain ⟨q1, q2, q3⟩ := h1 l l1 l2
      rw [if_pos l2, rescueZ_eq hp a1 a2 k l1 l3, if_pos l2, t2 l l1 l2]
      have u := t1 l
      generalize t l = τ at *
      have τ0 : τ ≠ 0 := by intro e; rw [e] at u; norm_num at u
      generalize a1 l = a at *
      generalize a2 l = b at *
      generalize (sqrt (lit 2 1) : K) = r
      generalize (del k 1 : K) = d1
      generalize (del k (1 + l) : K) = d2
      generalize (del k (1 + p.n + l) : K) = d3
      field_simp
    · rw [if_neg (by omega), rescueZ_eq hp a1 a2 k (by omega) l2, if_neg (by omega)]
    · obtain ⟨q1, q2, q3⟩ := h1 l l1 l2
      rw [rescueB_eq n1 hlow a1 a2 l1 l2, if_pos (by omega)]
      generalize a1 l = a at *
      generalize a2 l = b at *
      generalize (del k 1 : K) = d1
      generalize (del k (1 + l) : K) = d2
      generalize (del k (1 + p.n + l) : K) = d3
      field_simp
      ring
    · by_cases q : 1 ≤ l
      · rw [rescueB_eq n1 hlow a1 a2 q l1, if_neg (by omega), del_ne (show k ≠ p.npt + l by omega)]; ring
      · omega
    · rw [rescueB_eq n1 hlow a1 a2 l1 l2]
      by_cases c : p.nptm < l
      · rw [if_neg (by omega), if_pos c, del_ne (show p.npt + i ≠ 1 + l by omega), del_ne (show p.npt + i ≠ 1 by omega)]
        by_cases w : i = l
        · rw [w, del_self, del_self]; ring
        · rw [del_ne w, del_ne (show p.npt + i ≠ p.npt + l by omega)]; ring
      · rw [if_pos (by omega), if_neg c, del_ne (by omega), del_ne (by omega), del_ne (by omega)]; ring
  have g := ax.good
  have eo : (fun i j => ∑ k ∈ Finset.Icc 1 p.nptm, (if k ≤ p.n then t k * rescueZ p a1 a2 i k else rescueZ p a1 a2 i k) * (if k ≤ p.n then t k * rescueZ p a1 a2 j k else rescueZ p a1 a2 j k))
      = omega p.nptm (rescueZ p a1 a2) := by
    funext i j
    refine Finset.sum_congr rfl fun k _ => ?_
    split_ifs
    · linear_combination rescueZ p a1 a2 i k * rescueZ p a1 a2 j k * t1 k
    · rfl
  rw [eo] at g
  exact g

end
end Opk.Bobyqa
