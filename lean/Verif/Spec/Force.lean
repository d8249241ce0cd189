import Verif.Model.Vec3
import Verif.Spec.Chain
import Mathlib.Algebra.BigOperators.Group.Finset.Basic
import Mathlib.Analysis.SpecialFunctions.Pow.Real

/-
Physics formulas, independent of the model of the C++ loops.
-/

set_option autoImplicit false

namespace SpaceHub.Spec
open SpaceHub V3

/-- Euclidean length. -/
noncomputable def len (a : V3 ℝ) : ℝ := Real.sqrt (dot a a)

/-- Newton: acceleration of a body at `x1` caused by mass `m2` at `x2` (G = 1, as in the code). -/
noncomputable def newton (m2 : ℝ) (x1 x2 : V3 ℝ) : V3 ℝ := (m2 / len (x2 - x1) ^ 3) • (x2 - x1)

/-- What remains of an array of accelerations after adding, for every particle `k`, the accelerations
`F k j` caused by all other particles `j < n`; nothing beyond the `n` particles changes. -/
def Accumulates (n : Nat) (F : Nat → Nat → V3 ℝ) (acc acc' : Arr (V3 ℝ)) : Prop :=
  (∀ k, k < n → acc' k = acc k + ∑ j ∈ (Finset.range n).erase k, F k j) ∧ ∀ k, n ≤ k → acc' k = acc k

/-- Potential energy of a set of point masses: -G m_i m_j / r_ij over all unordered pairs. -/
noncomputable def potential (G : ℝ) (n : Nat) (m : Arr ℝ) (x : Arr (V3 ℝ)) : ℝ :=
  ∑ p ∈ ((Finset.range n) ×ˢ (Finset.range n)).filter (fun p => p.1 < p.2),
    -(G * m p.1 * m p.2 / len (x p.1 - x p.2))

/-! Post-Newtonian acceleration of body 1 caused by body 2, harmonic coordinates
(Blanchet, Living Rev. Relativity 17 (2014) 2, eq. (203)); `n12 = (x1-x2)/r`, `v12 = v1-v2`. -/

/-- Two-body data: masses, positions, velocities of the accelerated body 1 and of the other body 2. -/
structure TwoBody where
  (m1 m2 : ℝ) (x1 x2 v1 v2 : V3 ℝ)

namespace TwoBody
variable (b : TwoBody)
noncomputable def r : ℝ := len (b.x1 - b.x2)
noncomputable def n : V3 ℝ := (b.x1 - b.x2) / b.r
noncomputable def nv1 : ℝ := dot b.n b.v1
noncomputable def nv2 : ℝ := dot b.n b.v2
def vv : ℝ := dot b.v1 b.v2
def v1s : ℝ := dot b.v1 b.v1
def v2s : ℝ := dot b.v2 b.v2

/-- the 1/c² term -/
noncomputable def pn1 (G c : ℝ) : V3 ℝ :=
  (1 / c ^ 2) • (
    (5 * G ^ 2 * b.m1 * b.m2 / b.r ^ 3 + 4 * G ^ 2 * b.m2 ^ 2 / b.r ^ 3
      + G * b.m2 / b.r ^ 2 * (3 / 2 * b.nv2 ^ 2 - b.v1s + 4 * b.vv - 2 * b.v2s)) • b.n
    + (G * b.m2 / b.r ^ 2 * (4 * b.nv1 - 3 * b.nv2)) • (b.v1 - b.v2))

/-- the 1/c⁴ term -/
noncomputable def pn2 (G c : ℝ) : V3 ℝ :=
  (1 / c ^ 4) • (
    (-(57 * G ^ 3 * b.m1 ^ 2 * b.m2 / (4 * b.r ^ 4)) - 69 * G ^ 3 * b.m1 * b.m2 ^ 2 / (2 * b.r ^ 4)
      - 9 * G ^ 3 * b.m2 ^ 3 / b.r ^ 4
      + G * b.m2 / b.r ^ 2 * (-(15 / 8) * b.nv2 ^ 4 + 3 / 2 * b.nv2 ^ 2 * b.v1s - 6 * b.nv2 ^ 2 * b.vv
          - 2 * b.vv ^ 2 + 9 / 2 * b.nv2 ^ 2 * b.v2s + 4 * b.vv * b.v2s - 2 * b.v2s ^ 2)
      + G ^ 2 * b.m1 * b.m2 / b.r ^ 3 * (39 / 2 * b.nv1 ^ 2 - 39 * b.nv1 * b.nv2 + 17 / 2 * b.nv2 ^ 2
          - 15 / 4 * b.v1s - 5 / 2 * b.vv + 5 / 4 * b.v2s)
      + G ^ 2 * b.m2 ^ 2 / b.r ^ 3 * (2 * b.nv1 ^ 2 - 4 * b.nv1 * b.nv2 - 6 * b.nv2 ^ 2 - 8 * b.vv
          + 4 * b.v2s)) • b.n
    + (G ^ 2 * b.m2 ^ 2 / b.r ^ 3 * (-2 * b.nv1 - 2 * b.nv2)
      + G ^ 2 * b.m1 * b.m2 / b.r ^ 3 * (-(63 / 4) * b.nv1 + 55 / 4 * b.nv2)
      + G * b.m2 / b.r ^ 2 * (-6 * b.nv1 * b.nv2 ^ 2 + 9 / 2 * b.nv2 ^ 3 + b.nv2 * b.v1s - 4 * b.nv1 * b.vv
          + 4 * b.nv2 * b.vv + 4 * b.nv1 * b.v2s - 5 * b.nv2 * b.v2s)) • (b.v1 - b.v2))

/-- the 1/c⁵ (radiation reaction) term -/
noncomputable def pn2p5 (G c : ℝ) : V3 ℝ :=
  (1 / c ^ 5) • (
    (208 * G ^ 3 * b.m1 * b.m2 ^ 2 / (15 * b.r ^ 4) * dot b.n (b.v1 - b.v2)
      - 24 * G ^ 3 * b.m1 ^ 2 * b.m2 / (5 * b.r ^ 4) * dot b.n (b.v1 - b.v2)
      + 12 * G ^ 2 * b.m1 * b.m2 / (5 * b.r ^ 3) * dot b.n (b.v1 - b.v2)
        * dot (b.v1 - b.v2) (b.v1 - b.v2)) • b.n
    + (8 * G ^ 3 * b.m1 ^ 2 * b.m2 / (5 * b.r ^ 4) - 32 * G ^ 3 * b.m1 * b.m2 ^ 2 / (5 * b.r ^ 4)
      - 4 * G ^ 2 * b.m1 * b.m2 / (5 * b.r ^ 3) * dot (b.v1 - b.v2) (b.v1 - b.v2)) • (b.v1 - b.v2))
end TwoBody

/-- Tidal acceleration (Hut 1981) of body 1 on body 2's account: the bulges of both bodies
(`k` apsidal constants, `tau` lag times, `rad` radii). -/
noncomputable def tidal (G : ℝ) (k1 k2 tau1 tau2 rad1 rad2 : ℝ) (b : TwoBody) : V3 ℝ :=
  let d := b.x2 - b.x1
  let rr := dot (b.v2 - b.v1) d / b.r ^ 2
  ((3 * G * (k1 * rad1 ^ 5 * b.m2 ^ 2 * (1 + 3 * tau1 * rr) + k2 * rad2 ^ 5 * b.m1 ^ 2 * (1 + 3 * tau2 * rr))
    / b.r ^ 8) / b.m1) • d

end SpaceHub.Spec
