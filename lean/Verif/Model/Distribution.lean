import Verif.Model.Variation
import Verif.Lemmas.GaussTrunc
import Mathlib.Probability.Distributions.Gaussian.Multivariate
import Mathlib.Analysis.SpecialFunctions.ContinuousFunctionalCalculus.Abs

/-!
# Model of the distributions of the random draws (`src/pystrata/variation.py`)

`Model/Variation` has the draws as parameters; here they get the distributions of the generators of numpy and scipy,
taken to be exact.
-/

set_option autoImplicit false

noncomputable section

namespace Verif.Variation

open Verif.Py MeasureTheory ProbabilityTheory
open scoped MatrixOrder

/-- `scipy.stats.truncnorm(-limit, limit)`: the standard normal distribution, given that the value is within the
limits. -/
def truncStd (limit : ℝ) : Measure ℝ := cond (gaussianReal 0 1) (Set.Icc (-limit) limit)

/-- variation.py:63 `stats.truncnorm.stats(-value, value, moments="v")`. -/
def truncVar (limit : ℝ) : ℝ := Var[fun x => x; truncStd limit]

/-- variation.py:63: the attribute `_scale`. -/
def scale (limit : ℝ) : ℝ := 1 / Real.sqrt (truncVar limit)

/-- variation.py:69-91 `TruncatedNorm.__call__`: the distribution of a draw. -/
def drawLaw (limit : ℝ) : Measure ℝ := (truncStd limit).map (truncDraw (truncVar limit))

/-- variation.py:104: the covariance matrix given to `multivariate_normal`. -/
def pairCov (correl : ℝ) : Matrix (Fin 2) (Fin 2) ℝ := !![1, correl; correl, 1]

/-- variation.py:103-105: the distribution of one pair. -/
def pairLaw (correl : ℝ) : Measure (EuclideanSpace ℝ (Fin 2)) := multivariateGaussian 0 (pairCov correl)

/-- variation.py:106: the valid pairs. -/
def validPairs (limit : ℝ) : Set (EuclideanSpace ℝ (Fin 2)) := {x | |x 0| < limit ∧ |x 1| < limit}

/-- variation.py:93-109 `TruncatedNorm.correlated`: the distribution of the first of the two values returned. -/
def sampleLaw (limit correl : ℝ) : Measure ℝ := (cond (pairLaw correl) (validPairs limit)).map fun x => x 0

/-- variation.py:138: the distribution `truncnorm(-limit/scale, limit/scale, scale=scale)`, which is that of `scale * t`
for `t` of the standard normal distribution truncated to these limits. -/
def percentLaw (limit : ℝ) : Measure ℝ :=
  (cond (gaussianReal 0 1) (Set.Icc (-limit / scale limit) (limit / scale limit))).map fun t => scale limit * t

/-- variation.py:139: `z` is `stats.truncnorm.ppf(p, a, b, scale=self._scale)`, the percent point function being the
inverse of the distribution function. -/
def IsPpf (limit p z : ℝ) : Prop := (percentLaw limit).real (Set.Iic z) = p

/-- `np.random.multivariate_normal(mean, cov, check_valid="ignore")` for a symmetric matrix: numpy takes the singular
value decomposition `cov = u s v` and returns `mean + (z * sqrt(s)) v` with standard normal `z`.  The covariance matrix
of this is `vᵀ s v`, the square root of `covᵀ cov` (`CFC.abs`), which is `cov` if that is positive semidefinite. -/
def npNormal {n : Nat} (mean : Fin n → ℝ) (cov : Matrix (Fin n) (Fin n) ℝ) : Measure (EuclideanSpace ℝ (Fin n)) :=
  multivariateGaussian (WithLp.toLp 2 mean) (CFC.abs cov)

/-- variation.py:371-395 `_calc_covar_matrix` as a matrix. -/
def covMatrix (n : Nat) (s : ℝ) (std corr : Nat → ℝ) : Matrix (Fin n) (Fin n) ℝ :=
  Matrix.of fun i j => covar s std corr i j

/-- variation.py:353-356: the distribution of the drawn logarithms of the velocities. -/
def lnVelLaw (limit : ℝ) {n : Nat} (vel : Fin n → ℝ) (std corr : Nat → ℝ) : Measure (EuclideanSpace ℝ (Fin n)) :=
  npNormal (fun k => Real.log (vel k)) (covMatrix n (scale limit) std corr)

/-- variation.py:358-361: the varied velocity of layer `k` for the drawn logarithms `x`. -/
def drawnVel (limit : ℝ) {n : Nat} (vel : Fin n → ℝ) (std corr : Nat → ℝ) (k : Fin n)
    (x : EuclideanSpace ℝ (Fin n)) : ℝ :=
  variedVel limit (vel k) (covMatrix n (scale limit) std corr k k) (x k)

end Verif.Variation
