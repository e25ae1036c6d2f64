import Verif.Model.Mms
import Verif.Lemmas.MmsSmooth

/-!
# The manufactured solutions of some demos

The sines and cosines written in `setup_mms` as smooth functions on the plane, for the demos whose
equations hold only for particular functions or whose boundary values matter.
-/

namespace Verif.Mms

/-- `x*(1-x)*y*(1-y)` in the arguments of demo/poisson_babuska.py:71, demo/dirac_2d.py:62,
demo/elasticity_2d.py:130-131 and demo/elasticity_mixed_2d.py:133-134. -/
def bubble : Sm := X * (1 - X) * Y * (1 - Y)

/-- `(x-0.25)*(x-0.75)*(y-0.25)*(y-0.75)` of demo/isect_mortar_2d.py:156-157. -/
noncomputable def innerBubble : Sm := (X - c (1/4)) * (X - c (3/4)) * (Y - c (1/4)) * (Y - c (3/4))

/-- `u0` of demo/twoDoneDoneD.py:53 -/
noncomputable def cross : Sm := sinS (c Real.pi * (Y * (X - c (1/2))))

/-- The argument `pi*(x-2*y)` of demo/bertoluzza_stokes.py:29. -/
noncomputable def wave : Sm := c Real.pi * (X - c 2 * Y)

/-- `phi` of demo/bertoluzza_stokes.py:29 and demo/free_slip_stokes_iter.py:35 -/
noncomputable def stream : Sm := sinS wave

/-- `p` of demo/bertoluzza_stokes.py:31 and demo/free_slip_stokes_iter.py:37 -/
noncomputable def pres : Sm := cosS (c Real.pi * (c 2 * X - c 3 * Y))

/-- `u` of demo/poisson_babuska.py:71 and demo/dirac_2d.py:62. -/
noncomputable def poissonU : Sm := cosS (c Real.pi * bubble)

/-- `u_` of demo/elasticity_2d.py:130-131 and demo/elasticity_mixed_2d.py:133-134. -/
noncomputable def elasticityU : Vec Sm :=
  (c (1 / 100) * cosS (c Real.pi * bubble), c (- (1 / 100)) * cosS (c (2 * Real.pi) * bubble))

/-- `u1` of demo/isect_mortar_2d.py:156. -/
noncomputable def isectU1 : Sm := cosS (c (2 * Real.pi) * innerBubble)

/-- `u2` of demo/isect_mortar_2d.py:157. -/
noncomputable def isectU2 : Sm := c 2 * cosS (c Real.pi * innerBubble)

/-- `u` of demo/time_dep.py:73 at the time `t`. -/
noncomputable def heatU (t : ℝ) : Sm := sinS (c (Real.pi * t) * (X * (X * X + Y * Y)))

end Verif.Mms
