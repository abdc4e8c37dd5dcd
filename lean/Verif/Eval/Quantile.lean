import Verif.Eval.Model
import Verif.Props.NormalCdf

/-!
# The quantiles of the bootstrap over the reals

`inverse_normal_cdf` of `/repo/src/pybroker/vect.py` as the code computes it, for the BCa
intervals of `/repo/src/pybroker/eval.py`.
-/

namespace PyBroker

/-- `x` as a function of `t`, vect.py:279-281. -/
noncomputable def quantileAt (t : ℝ) : ℝ :=
  t - ((0.010328 * t + 0.802853) * t + 2.515517) /
    (((0.001308 * t + 0.189269) * t + 1.432788) * t + 1)

/-- `t`, vect.py:278. -/
noncomputable def quantileArg (pp : ℝ) : ℝ := Real.sqrt (Real.log (1 / (pp * pp)))

/-- `inverse_normal_cdf`, vect.py:272-282. -/
noncomputable def inverseNormalCdf (p : ℝ) : ℝ :=
  let p' := if p ≤ 0.5 then p else 1 - p
  let pp := if p' = 0 then 1.0e-10 else p'
  let x := quantileAt (quantileArg pp)
  if p ≤ 0.5 then -x else x

/-- The inverse and `int` of the BCa intervals, eval.py:161-198: `int` of a float drops its
fraction. -/
noncomputable def realBca : BcaFns ℝ where
  inv := inverseNormalCdf
  toInt := fun v => if 0 ≤ v then ⌊v⌋ else ⌈v⌉

end PyBroker
