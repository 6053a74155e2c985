import Verif.Bobyqa.Quadratic
import Verif.Newuoa.Keep

/-!
# The Lagrange functions of BOBYQA, in exact arithmetic
-/
set_option linter.unusedSectionVars false
namespace Opk.Bobyqa
open Linalg CMath Cobyla Powell
open Newuoa (omega hform qval hform_congr hcolumn betaOf lfun)

section
variable {K : Type} [Field K] [LinearOrder K] [IsStrictOrderedRing K] [CMath K] [ExactMath K]

/-- The arrays of the inverse matrix as those of a state of NEWUOA. -/
def St.nw (s : St K) : Newuoa.St K :=
  { x := s.x, xbase := s.xbase, xopt := s.xopt, xnew := s.xnew, xpt := s.xpt, fval := s.fval, gq := s.gopt, hq := s.hq, pq := s.pq, bmat := s.bmat, zmat := s.zmat, d := s.d, vlag := s.vlag, w := s.wd, alpha := s.alpha, beta := s.beta, crvmin := 0, delta := 0, diff := 0, diffa := 0, diffb := 0, diffc := 0, dnorm := 0, dsq := s.dsq, dstep := 0, f := 0, fbeg := 0, fopt := 0, fsave := 0, ratio := 0, rho := 0, vquad := 0, xipt := 0, xjpt := 0, xoptsq := s.xoptsq, idz := 1, ipt := 0, jpt := 0, itest := 0, knew := 0, ksave := 0, kopt := s.kopt, nf := 0, nfsav := 0, status := .success, log := [] }

/-- `VLAG` and `BETA` are those of the point `x`. -/
def Lag (p : Par K) (s : St K) (x : Nat → K) : Prop := Newuoa.Lag p.nw s.nw x

theorem up_pair {α β : Type} (n : Nat) (f : Nat → α → α) (g : Nat → Nat → β → β) (a : α) (b : Nat → β) :
    up n (fun k (t : α × (Nat → β)) => (f k t.1, fun i => g k i (t.2 i))) (a, b) = (up n f a, fun i => up n (fun k => g k i) (b i)) := by
  have h1 := up_inv (body := fun k (t : α × (Nat → β)) => (f k t.1, fun i => g k i (t.2 i))) (s := (a, b))
    (fun k t => t = (up k f a, fun i => up k (fun k => g k i) (b i))) n rfl (by rintro k _ _ rfl; rfl)
  exact h1

theorem vlagBeta_eq (p : Par K) (s : St K) (hd : s.dsq = Powell.dot p.n s.d s.d) :
    (∀ i, (vlagBeta p s).1 i = (Newuoa.lagrange p.nw s.nw).vlag i) ∧ (vlagBeta p s).2 = (Newuoa.lagrange p.nw s.nw).beta := by
  have e : up p.nptm (fun k (t : K × (Nat → K)) =>
      (if k < 1 then t.1 + acc p.npt (fun i => s.zmat i k * wvec p s i) 0 * acc p.npt (fun i => s.zmat i k * wvec p s i) 0
        else t.1 - acc p.npt (fun i => s.zmat i k * wvec p s i) 0 * acc p.npt (fun i => s.zmat i k * wvec p s i) 0,
       fun i => t.2 i + Newuoa.signed 1 k (acc p.npt (fun i => s.zmat i k * wvec p s i) 0) * s.zmat i k)) ((0 : K), fun k => acc p.n (fun j => s.bmat k j * s.d j) 0)
      = (up p.nptm (fun j t => t - acc p.npt (fun k => s.zmat k j * wvec p s k) 0 * acc p.npt (fun k => s.zmat k j * wvec p s k) 0) 0,
        fun k => acc p.nptm (fun j => acc p.npt (fun k => s.zmat k j * wvec p s k) 0 * s.zmat k j) (acc p.n (fun j => s.bmat k j * s.d j) 0)) := by
    rw [up_congr (g := fun k (t : K × (Nat → K)) =>
      (t.1 - acc p.npt (fun i => s.zmat i k * wvec p s i) 0 * acc p.npt (fun i => s.zmat i k * wvec p s i) 0,
       fun i => t.2 i + acc p.npt (fun i => s.zmat i k * wvec p s i) 0 * s.zmat i k))]
    · exact up_pair p.nptm (fun k t => t - acc p.npt (fun i => s.zmat i k * wvec p s i) 0 * acc p.npt (fun i => s.zmat i k * wvec p s i) 0)
        (fun k i t => t + acc p.npt (fun i => s.zmat i k * wvec p s i) 0 * s.zmat i k) 0 _
    · intro k k1 _ t
      unfold Newuoa.signed
      rw [if_neg (by omega), if_neg (by omega)]
  have eb : up p.n (fun j t => t + acc p.npt (fun k => wvec p s k * s.bmat k j) 0 * s.d j
        + acc p.n (fun i => s.bmat (p.npt + j) i * s.d i) (acc p.npt (fun k => wvec p s k * s.bmat k j) 0) * s.d j) 0
      = acc p.n (fun j => acc p.npt (fun k => wvec p s k * s.bmat k j) 0 * s.d j
        + acc p.n (fun i => s.bmat (p.npt + j) i * s.d i) (acc p.npt (fun k => wvec p s k * s.bmat k j) 0) * s.d j) 0 := by
    unfold acc
    exact up_congr fun k _ _ t => add_assoc _ _ _
  have ev : ∀ k, (if k ≤ p.npt then (up p.nptm (fun k (t : K × (Nat → K)) =>
      (if k < 1 then t.1 + acc p.npt (fun i => s.zmat i k * wvec p s i) 0 * acc p.npt (fun i => s.zmat i k * wvec p s i) 0
        else t.1 - acc p.npt (fun i => s.zmat i k * wvec p s i) 0 * acc p.npt (fun i => s.zmat i k * wvec p s i) 0,
       fun i => t.2 i + Newuoa.signed 1 k (acc p.npt (fun i => s.zmat i k * wvec p s i) 0) * s.zmat i k)) ((0 : K), fun k => acc p.n (fun j => s.bmat k j * s.d j) 0)).2 k
      else acc p.n (fun i => s.bmat (p.npt + (k - p.npt)) i * s.d i) (acc p.npt (fun i => wvec p s i * s.bmat i (k - p.npt)) 0)) =
      if k ≤ p.npt then acc p.nptm (fun j => acc p.npt (fun k => s.zmat k j * wvec p s k) 0 * s.zmat k j) (acc p.n (fun j => s.bmat k j * s.d j) 0)
      else acc p.n (fun i => s.bmat (p.npt + (k - p.npt)) i * s.d i) (acc p.npt (fun i => wvec p s i * s.bmat i (k - p.npt)) 0) := by
    intro k; rw [e]
  constructor
  · intro i
    unfold vlagBeta Newuoa.lagrange
    dsimp only
    unfold set1
    by_cases q : i = s.kopt
    · rw [if_pos q, if_pos (show i = s.nw.kopt from q)]
      exact congrArg (· + 1) (ev s.kopt).symm
    · rw [if_neg q, if_neg (show ¬ i = s.nw.kopt from q)]
      exact (ev i).symm
  · have dd : acc p.n (fun j => s.d j * s.d j) 0 = s.dsq := by rw [hd, acc_eq, zero_add]; rfl
    show acc p.n (fun j => s.d j * s.xopt j) 0 * acc p.n (fun j => s.d j * s.xopt j) 0
      + acc p.n (fun j => s.d j * s.d j) 0 * (s.xoptsq + acc p.n (fun j => s.d j * s.xopt j) 0 + acc p.n (fun j => s.d j * s.xopt j) 0 + lit 1 2 * acc p.n (fun j => s.d j * s.d j) 0)
      + _ - up p.n (fun j t => t + acc p.npt (fun k => wvec p s k * s.bmat k j) 0 * s.d j
        + acc p.n (fun i => s.bmat (p.npt + j) i * s.d i) (acc p.npt (fun k => wvec p s k * s.bmat k j) 0) * s.d j) 0 = _
    rw [dd, eb]
    have := congrArg Prod.fst e
    exact congrArg (fun a => acc p.n (fun j => s.d j * s.xopt j) 0 * acc p.n (fun j => s.d j * s.xopt j) 0
      + s.dsq * (s.xoptsq + acc p.n (fun j => s.d j * s.xopt j) 0 + acc p.n (fun j => s.d j * s.xopt j) 0 + lit 1 2 * s.dsq) + a
      - acc p.n (fun j => acc p.npt (fun k => wvec p s k * s.bmat k j) 0 * s.d j
        + acc p.n (fun i => s.bmat (p.npt + j) i * s.d i) (acc p.npt (fun k => wvec p s k * s.bmat k j) 0) * s.d j) 0) this.symm

/-- `VLAG` and `BETA` of `vlagBeta`. -/
theorem vlagBeta_spec {p : Par K} {s : St K} {c : Nat → K} (h : Good p.n p.npt s.xpt (omega p.nptm s.zmat) s.bmat c)
    (k1 : 1 ≤ s.kopt) (k2 : s.kopt ≤ p.npt) (hx : s.xopt = s.xpt s.kopt) (hq : s.xoptsq = Powell.dot p.n s.xopt s.xopt) :
    (∀ i, 1 ≤ i → i ≤ p.npt + p.n → (vlagBeta p s).1 i = hcolumn p.nw s.nw c (fun j => s.xopt j + s.d j) i) ∧
    (vlagBeta p s).2 = betaOf p.nw s.nw c (fun j => s.xopt j + s.d j) := by
  obtain ⟨a, b⟩ := vlagBeta_eq p { s with dsq := Powell.dot p.n s.d s.d } rfl
  obtain ⟨a', b'⟩ := Newuoa.lagrange_spec p.nw ({ s with dsq := Powell.dot p.n s.d s.d } : St K).nw rfl h k1 k2 hx hq rfl
  exact ⟨fun i i1 i2 => (a i).trans (a' i i1 i2), b.trans b'⟩

end
end Opk.Bobyqa
