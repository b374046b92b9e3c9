import Verif.Num.Vec3
import Mathlib.Analysis.SpecialFunctions.Trigonometric.Deriv
import Mathlib.Analysis.SpecialFunctions.Sqrt

/-!
# Model of the Keplerian orbit callback

Models `include/huira/scene/state_callbacks/keplerian_orbit.hpp` and `spice::conics` of `include/huira_impl/core/spice.ipp`.
Exact real arithmetic; times are ephemeris seconds.  `conics_c` of CSPICE is a parameter; its documented contract is
`ConicsOk` below.
-/

namespace Huira.Orbit

noncomputable section
open Real

/-- The eight numbers handed to `conics_c`, by position (`std::array<double, 8>`). -/
structure Elements where
  e0 : ℝ
  e1 : ℝ
  e2 : ℝ
  e3 : ℝ
  e4 : ℝ
  e5 : ℝ
  e6 : ℝ
  e7 : ℝ

/-- `KeplerianOrbitCallback::KeplerianOrbitCallback` (`keplerian_orbit.hpp` 12-30): lengths in metres, angles in radians. -/
def elements (a e i raan argp M0 epoch mu : ℝ) : Elements := ⟨a / 1000, e, i, raan, argp, M0, epoch, mu⟩

/-- `spice::conics` (`spice.ipp` 386-403): kilometres to metres. -/
def conics (conicsC : Elements → ℝ → V3 × V3) (el : Elements) (t : ℝ) : V3 × V3 :=
  let state := conicsC el t
  ((1000 : ℝ) * state.1, (1000 : ℝ) * state.2)

/-- `KeplerianOrbitCallback::evaluate` (`keplerian_orbit.hpp` 32-43) at time `t`, of the callback `set_keplerian_orbit`
(`node.ipp` 295-307) installs; `local.position` and `local.velocity` of the node become these (`node.ipp` 493-497). -/
def evaluate (conicsC : Elements → ℝ → V3 × V3) (a e i raan argp M0 epoch mu t : ℝ) : V3 × V3 :=
  conics conicsC (elements a e i raan argp M0 epoch mu) t

end
end Huira.Orbit
