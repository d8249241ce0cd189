import Verif.Model.Orbit
import Verif.Spec.Orbit
import Verif.Proof.SysBase
import Mathlib.Analysis.SpecialFunctions.Trigonometric.Angle
import Mathlib.Tactic.LinearCombination
import Mathlib.Tactic.Linarith
import Mathlib.Tactic.FieldSimp
import Mathlib.Tactic.Positivity

set_option autoImplicit false

namespace SpaceHub.Orbit
open SpaceHub Spec.Orbit Real

section frame
variable (i Ω ω : ℝ)

theorem along_eq : along i Ω ω = (-sin ω) • node Ω + cos ω • (normal i Ω).cross (node Ω) := by
  have h1 := sin_sq_add_cos_sq i
  have h2 := sin_sq_add_cos_sq Ω
  ext <;> simp [along, peri, node, normal, V3.cross]
  · linear_combination (-cos Ω * sin ω) * h1 - (cos Ω * sin ω * sin i ^ 2) * h2
  · linear_combination (-sin Ω * sin ω) * h1 - (sin Ω * sin ω * sin i ^ 2) * h2
  · ring

theorem eulerRotate_eq (v : V3 ℝ) :
    eulerRotate v Ω i ω = v.x • peri i Ω ω + v.y • along i Ω ω + v.z • normal i Ω := by
  have h2 := sin_sq_add_cos_sq Ω
  rw [along_eq]
  ext <;> simp [eulerRotate, peri, node, normal, V3.cross]
  · ring
  · ring
  · linear_combination (-(v.x * sin i * sin ω + v.y * sin i * cos ω)) * h2

theorem normal_norm2 : (normal i Ω).norm2 = 1 := by
  have h1 := sin_sq_add_cos_sq i
  have h2 := sin_sq_add_cos_sq Ω
  simp [normal, V3.norm2]
  linear_combination h1 + sin i ^ 2 * h2

theorem peri_norm2 : (peri i Ω ω).norm2 = 1 := by
  have h1 := sin_sq_add_cos_sq i
  have h2 := sin_sq_add_cos_sq Ω
  have h3 := sin_sq_add_cos_sq ω
  simp [peri, normal, node, V3.cross, V3.norm2]
  linear_combination (cos ω ^ 2 + cos i ^ 2 * sin ω ^ 2 + sin i ^ 2 * sin ω ^ 2 * (sin Ω ^ 2 + cos Ω ^ 2 + 1)) * h2 + sin ω ^ 2 * h1 + h3

theorem normal_dot_peri : (normal i Ω).dot (peri i Ω ω) = 0 := by
  have h2 := sin_sq_add_cos_sq Ω
  simp [peri, normal, node, V3.cross, V3.dot]
  ring

end frame

/-- An orthonormal, right-handed frame. -/
structure Frame (P Q W : V3 ℝ) : Prop where
  pp : P.dot P = 1
  qq : Q.dot Q = 1
  ww : W.dot W = 1
  pq : P.dot Q = 0
  wp : W.dot P = 0
  wq : W.dot Q = 0
  cpq : P.cross Q = W
  cqw : Q.cross W = P
  cwp : W.cross P = Q

theorem Frame.mk' {P W : V3 ℝ} (hp : P.dot P = 1) (hw : W.dot W = 1) (hwp : W.dot P = 0) : Frame P (W.cross P) W := by
  have e : ∀ a b c : V3 ℝ, a.cross (b.cross c) = (a.dot c) • b - (a.dot b) • c := by
    intro a b c
    ext <;> simp [V3.cross, V3.dot] <;> ring
  have e' : ∀ a b c : V3 ℝ, (a.cross b).cross c = (a.dot c) • b - (b.dot c) • a := by
    intro a b c
    ext <;> simp [V3.cross, V3.dot] <;> ring
  have c : ∀ a b : V3 ℝ, a.dot b = b.dot a := by
    intro a b
    simp [V3.dot]; ring
  refine ⟨hp, ?_, hw, ?_, hwp, ?_, ?_, ?_, rfl⟩
  · have : (W.cross P).dot (W.cross P) = W.dot W * P.dot P - (W.dot P) ^ 2 := by
      simp [V3.dot, V3.cross]; ring
    rw [this, hp, hw, hwp]; norm_num
  · simp [V3.dot, V3.cross]; ring
  · simp [V3.dot, V3.cross]; ring
  · rw [e, hp, c P W, hwp]
    ext <;> simp
  · rw [e', hw, c P W, hwp]
    ext <;> simp

theorem frame (i Ω ω : ℝ) : Frame (peri i Ω ω) (along i Ω ω) (normal i Ω) := by
  apply Frame.mk'
  · exact peri_norm2 i Ω ω
  · exact normal_norm2 i Ω
  · exact normal_dot_peri i Ω ω

theorem Frame.dot {P Q W : V3 ℝ} (h : Frame P Q W) (a b c a' b' c' : ℝ) :
    (a • P + b • Q + c • W).dot (a' • P + b' • Q + c' • W) = a * a' + b * b' + c * c' := by
  obtain ⟨h1, h2, h3, h4, h5, h6, -, -, -⟩ := h
  simp only [V3.dot, V3.add_x, V3.add_y, V3.add_z, V3.smul_x, V3.smul_y, V3.smul_z] at *
  linear_combination a * a' * h1 + b * b' * h2 + c * c' * h3 + (a * b' + b * a') * h4 + (a * c' + c * a') * h5 + (b * c' + c * b') * h6

theorem Frame.cross {P Q W : V3 ℝ} (h : Frame P Q W) (a b c a' b' c' : ℝ) :
    (a • P + b • Q + c • W).cross (a' • P + b' • Q + c' • W) =
      (b * c' - c * b') • P + (c * a' - a * c') • Q + (a * b' - b * a') • W := by
  obtain ⟨-, -, -, -, -, -, h1, h2, h3⟩ := h
  have hx := fun f : V3 ℝ → ℝ => congrArg f h1
  have hy := fun f : V3 ℝ → ℝ => congrArg f h2
  have hz := fun f : V3 ℝ → ℝ => congrArg f h3
  ext
  · have a1 := hx V3.x; have a2 := hy V3.x; have a3 := hz V3.x
    simp only [V3.cross, V3.add_x, V3.add_y, V3.add_z, V3.smul_x, V3.smul_y, V3.smul_z] at *
    linear_combination (a * b' - b * a') * a1 + (b * c' - c * b') * a2 + (c * a' - a * c') * a3
  · have a1 := hx V3.y; have a2 := hy V3.y; have a3 := hz V3.y
    simp only [V3.cross, V3.add_x, V3.add_y, V3.add_z, V3.smul_x, V3.smul_y, V3.smul_z] at *
    linear_combination (a * b' - b * a') * a1 + (b * c' - c * b') * a2 + (c * a' - a * c') * a3
  · have a1 := hx V3.z; have a2 := hy V3.z; have a3 := hz V3.z
    simp only [V3.cross, V3.add_x, V3.add_y, V3.add_z, V3.smul_x, V3.smul_y, V3.smul_z] at *
    linear_combination (a * b' - b * a') * a1 + (b * c' - c * b') * a2 + (c * a' - a * c') * a3

/-- Every vector is the combination of the frame with its components. -/
theorem Frame.expand {P Q W : V3 ℝ} (h : Frame P Q W) (v : V3 ℝ) : v = (v.dot P) • P + (v.dot Q) • Q + (v.dot W) • W := by
  obtain ⟨h1, h2, h3, h4, h5, h6, hpq, hqw, hwp⟩ := h
  have key : P.cross (v.cross P) = (P.dot P) • v - (P.dot v) • P := by
    ext <;> simp [V3.cross, V3.dot] <;> ring
  have k2 : v.cross P = (v.dot W) • Q - (v.dot Q) • W := by
    rw [show v.cross P = v.cross (Q.cross W) by rw [hqw]]
    ext <;> simp [V3.cross, V3.dot] <;> ring
  have k3 : P.cross ((v.dot W) • Q - (v.dot Q) • W) = (v.dot W) • P.cross Q + (v.dot Q) • W.cross P := by
    ext <;> simp [V3.cross] <;> ring
  rw [k2, k3, hpq, hwp, h1, one_smul] at key
  have k4 : P.dot v = v.dot P := by simp [V3.dot]; ring
  rw [k4] at key
  rw [eq_sub_iff_add_eq] at key
  calc v = _ := key.symm
    _ = _ := by abel

theorem norm_eq_len (v : V3 ℝ) : norm v = len v := by
  unfold norm len V3.norm2; congr 1; ring

theorem len_sq (v : V3 ℝ) : len v ^ 2 = v.dot v := by
  unfold len V3.dot
  rw [sq_sqrt (by positivity)]; ring

theorem len_nonneg (v : V3 ℝ) : 0 ≤ len v := sqrt_nonneg _

theorem len_eq_of {v : V3 ℝ} {c : ℝ} (hc : 0 ≤ c) (h : v.dot v = c ^ 2) : len v = c := by
  rw [← len_sq] at h
  exact (sq_eq_sq₀ (len_nonneg v) hc).1 h

theorem len_eq_zero {v : V3 ℝ} : len v = 0 ↔ v = 0 := by
  constructor
  · intro h
    have := len_sq v
    rw [h] at this
    simp only [V3.dot] at this
    have hx : v.x = 0 := by nlinarith [sq_nonneg v.x, sq_nonneg v.y, sq_nonneg v.z]
    have hy : v.y = 0 := by nlinarith [sq_nonneg v.x, sq_nonneg v.y, sq_nonneg v.z]
    have hz : v.z = 0 := by nlinarith [sq_nonneg v.x, sq_nonneg v.y, sq_nonneg v.z]
    ext <;> simp [hx, hy, hz]
  · rintro rfl; simp [len]

theorem len_neg (v : V3 ℝ) : len (-v) = len v := by simp [len]

section state
variable {u p e : ℝ} (i Ω ω ν : ℝ)

theorem peri_add_pi : peri i Ω (ω + π) = -peri i Ω ω := by
  ext <;> simp [peri] <;> ring

theorem along_add_pi : along i Ω (ω + π) = -along i Ω ω := by
  unfold along
  rw [peri_add_pi]
  ext <;> simp [V3.cross] <;> ring

theorem position_add_pi (p e : ℝ) : position p e i Ω (ω + π) ν = -position p e i Ω ω ν := by
  unfold position
  rw [peri_add_pi, along_add_pi]
  ext <;> simp <;> ring

theorem velocity_add_pi (u p e : ℝ) : velocity u p e i Ω (ω + π) ν = -velocity u p e i Ω ω ν := by
  unfold velocity
  rw [peri_add_pi, along_add_pi]
  ext <;> simp <;> ring

theorem position_frame (p e : ℝ) : position p e i Ω ω ν =
    (p / (1 + e * cos ν) * cos ν) • peri i Ω ω + (p / (1 + e * cos ν) * sin ν) • along i Ω ω + (0:ℝ) • normal i Ω := by
  unfold position; ext <;> simp <;> ring

theorem velocity_frame (u p e : ℝ) : velocity u p e i Ω ω ν =
    (-(sqrt (u / p) * sin ν)) • peri i Ω ω + (sqrt (u / p) * (e + cos ν)) • along i Ω ω + (0:ℝ) • normal i Ω := by
  unfold velocity; ext <;> simp <;> ring

theorem position_len (hp : 0 < p) (hq : 0 < 1 + e * cos ν) : len (position p e i Ω ω ν) = p / (1 + e * cos ν) := by
  apply len_eq_of (by positivity)
  rw [position_frame, (frame i Ω ω).dot]
  linear_combination (p / (1 + e * cos ν)) ^ 2 * sin_sq_add_cos_sq ν

theorem velocity_len_sq (hp : 0 < p) (hu : 0 < u) : len (velocity u p e i Ω ω ν) ^ 2 = u / p * (1 + e ^ 2 + 2 * e * cos ν) := by
  rw [len_sq, velocity_frame, (frame i Ω ω).dot]
  have h := sq_sqrt (show 0 ≤ u / p by positivity)
  linear_combination (1 + e ^ 2 + 2 * e * cos ν) * h + sqrt (u / p) ^ 2 * sin_sq_add_cos_sq ν

theorem position_cross_velocity (hp : 0 < p) (hu : 0 < u) (hq : 1 + e * cos ν ≠ 0) :
    (position p e i Ω ω ν).cross (velocity u p e i Ω ω ν) = sqrt (u * p) • normal i Ω := by
  rw [position_frame, velocity_frame, (frame i Ω ω).cross]
  have hs : sqrt (u * p) = p * sqrt (u / p) := by
    rw [show u * p = p ^ 2 * (u / p) by field_simp, sqrt_mul (by positivity), sqrt_sq hp.le]
  have hc : p / (1 + e * cos ν) * cos ν * (sqrt (u / p) * (e + cos ν)) - p / (1 + e * cos ν) * sin ν * -(sqrt (u / p) * sin ν) =
      sqrt (u * p) := by
    rw [hs]
    field_simp
    linear_combination sin_sq_add_cos_sq ν
  rw [hc]
  ext <;> simp

theorem state_energy (hp : 0 < p) (hu : 0 < u) (hq : 0 < 1 + e * cos ν) :
    energy u (position p e i Ω ω ν) (velocity u p e i Ω ω ν) = -(u * (1 - e ^ 2) / (2 * p)) := by
  unfold energy
  rw [velocity_len_sq i Ω ω ν hp hu, position_len i Ω ω ν hp hq]
  field_simp
  ring

theorem state_ecc (hp : 0 < p) (hu : 0 < u) (hq : 0 < 1 + e * cos ν) :
    eccVector u (position p e i Ω ω ν) (velocity u p e i Ω ω ν) = e • peri i Ω ω := by
  unfold eccVector
  rw [position_cross_velocity i Ω ω ν hp hu hq.ne', position_len i Ω ω ν hp hq]
  have hv : (velocity u p e i Ω ω ν).cross (sqrt (u * p) • normal i Ω) =
      (sqrt (u / p) * (e + cos ν) * sqrt (u * p)) • peri i Ω ω + (sqrt (u / p) * sin ν * sqrt (u * p)) • along i Ω ω := by
    rw [velocity_frame, show sqrt (u * p) • normal i Ω = (0:ℝ) • peri i Ω ω + (0:ℝ) • along i Ω ω + sqrt (u * p) • normal i Ω by simp,
      (frame i Ω ω).cross]
    ext <;> simp
  have hs : sqrt (u / p) * sqrt (u * p) = u := by
    rw [← sqrt_mul (by positivity), show u / p * (u * p) = u ^ 2 by field_simp, sqrt_sq hu.le]
  rw [hv, position]
  have h1 : sqrt (u / p) * (e + cos ν) * sqrt (u * p) = u * (e + cos ν) := by linear_combination (e + cos ν) * hs
  have h2 : sqrt (u / p) * sin ν * sqrt (u * p) = u * sin ν := by linear_combination sin ν * hs
  rw [h1, h2]
  ext <;> simp <;> field_simp <;> ring

end state

theorem orbitToCoord_ok (k : Kepler) (hp : 0 < k.p) (hu : 0 < k.m1 + k.m2) (hq : 1 + k.e * cos k.nu ≠ 0) :
    orbitToCoord k = .ok (-position k.p k.e k.i k.Omega k.omega k.nu, -velocity (k.m1 + k.m2) k.p k.e k.i k.Omega k.omega k.nu) := by
  have h1 : ¬ (k.m1 + k.m2) / k.p < 0 := by have := div_pos hu hp; linarith
  unfold orbitToCoord
  simp only [fdiv, fsqrt, G, mul_one, hq, hp.ne', if_neg, not_false_eq_true, Sys.Res.ok_bind, h1]
  rw [← position_add_pi, ← velocity_add_pi, eulerRotate_eq, eulerRotate_eq]
  congr 2
  · unfold position; ext <;> simp <;> ring
  · unfold velocity; ext <;> simp <;> ring

theorem inRange_self {c : ℝ} (h1 : -1 ≤ c) (h2 : c ≤ 1) : inRange (-1) c 1 = c := by
  unfold inRange
  have h : (if -1 > c then -1 else c) = c := if_neg (by linarith)
  rw [h]
  exact if_neg (by linarith)

theorem abs_le_one_of {c s : ℝ} (h : c ^ 2 + s ^ 2 = 1) : -1 ≤ c ∧ c ≤ 1 := by
  constructor <;> nlinarith [sq_nonneg s, sq_nonneg (c - 1), sq_nonneg (c + 1)]

/-- The way the code computes an angle from its cosine and a quantity with the sign of its sine. -/
theorem sign_arccos {c s t κ : ℝ} (h : c ^ 2 + s ^ 2 = 1) (hκ : 0 < κ) (ht : t = κ * s) :
    cos (MathFn.sign t * arccos c) = c ∧ sin (MathFn.sign t * arccos c) = s := by
  obtain ⟨h1, h2⟩ := abs_le_one_of h
  have hs : sqrt (1 - c ^ 2) = |s| := by rw [show 1 - c ^ 2 = s ^ 2 by linarith, sqrt_sq_eq_abs]
  unfold MathFn.sign
  by_cases hp : t > 0
  · rw [if_pos hp, show (-1 + 2 * 1 : ℝ) * arccos c = arccos c by ring, cos_arccos h1 h2, sin_arccos, hs]
    refine ⟨rfl, abs_of_pos ?_⟩
    rw [ht] at hp
    exact (pos_iff_pos_of_mul_pos hp).1 hκ
  · rw [if_neg hp, show (-1 + 2 * 0 : ℝ) * arccos c = -arccos c by ring, cos_neg, sin_neg, cos_arccos h1 h2, sin_arccos, hs]
    refine ⟨rfl, ?_⟩
    rw [abs_of_nonpos, neg_neg]
    by_contra hn
    push Not at hn
    exact hp (by rw [ht]; positivity)

theorem sign_myacos {c s t κ : ℝ} (h : c ^ 2 + s ^ 2 = 1) (hκ : 0 < κ) (ht : t = κ * s) :
    cos (MathFn.sign t * myacos c) = c ∧ sin (MathFn.sign t * myacos c) = s := by
  obtain ⟨h1, h2⟩ := abs_le_one_of h
  rw [myacos, inRange_self h1 h2]
  exact sign_arccos h hκ ht

theorem sign_myacos_le (t c : ℝ) : |MathFn.sign t * myacos c| ≤ π := by
  have h1 := arccos_nonneg (inRange (-1) c 1)
  have h2 := arccos_le_pi (inRange (-1) c 1)
  unfold MathFn.sign myacos
  by_cases h : t > 0
  · rw [if_pos h, abs_le]; constructor <;> linarith
  · rw [if_neg h, abs_le]; constructor <;> linarith

/-- The same, with the sign reversed. -/
theorem neg_sign_myacos {c s t κ : ℝ} (h : c ^ 2 + s ^ 2 = 1) (hκ : 0 < κ) (ht : t = -(κ * s)) :
    cos (-MathFn.sign t * myacos c) = c ∧ sin (-MathFn.sign t * myacos c) = s := by
  obtain ⟨h1, h2⟩ := sign_myacos (c := c) (s := -s) (t := t) (by nlinarith) hκ (by rw [ht]; ring)
  rw [neg_mul, cos_neg, sin_neg, h1, h2, neg_neg]
  exact ⟨rfl, rfl⟩

section twobody
variable {u : ℝ} {dr dv : V3 ℝ}

theorem dot_self_pos {v : V3 ℝ} (h : v ≠ 0) : 0 < len v := by
  rcases (len_nonneg v).lt_or_eq with h' | h'
  · exact h'
  · exact absurd (len_eq_zero.1 h'.symm) h

theorem dr_ne_zero (hL : dr.cross dv ≠ 0) : dr ≠ 0 := by
  rintro rfl
  apply hL
  ext <;> simp [V3.cross]

/-- The eccentricity vector in the form the code uses. -/
theorem ecc_code (hu : u ≠ 0) (hr : dr ≠ 0) :
    ((dv.norm2 - u * (1 / norm dr)) • dr - (dr.dot dv) • dv) / u = eccVector u dr dv := by
  have hl := (dot_self_pos hr).ne'
  rw [norm_eq_len]
  unfold eccVector
  ext <;> simp [V3.cross, V3.dot, V3.norm2] <;> field_simp <;> ring

theorem ecc_dot_dr (hu : u ≠ 0) (hr : dr ≠ 0) :
    (eccVector u dr dv).dot dr = len (dr.cross dv) ^ 2 / u - len dr := by
  have hl := (dot_self_pos hr).ne'
  have h2 := len_sq dr
  rw [len_sq]
  simp only [eccVector, V3.dot, V3.cross, V3.sub_x, V3.sub_y, V3.sub_z, V3.smul_x, V3.smul_y, V3.smul_z] at *
  field_simp
  linear_combination u * h2

theorem ecc_dot_L (u : ℝ) (dr dv : V3 ℝ) : (eccVector u dr dv).dot (dr.cross dv) = 0 := by
  simp only [eccVector, V3.dot, V3.cross, V3.sub_x, V3.sub_y, V3.sub_z, V3.smul_x, V3.smul_y, V3.smul_z] at *
  ring

theorem ecc_sq (hu : u ≠ 0) (hr : dr ≠ 0) :
    len (eccVector u dr dv) ^ 2 = 1 + 2 * energy u dr dv * len (dr.cross dv) ^ 2 / u ^ 2 := by
  have hl := (dot_self_pos hr).ne'
  have h2 := len_sq dr
  unfold energy
  rw [len_sq, len_sq, len_sq]
  generalize hR : len dr = R at *
  simp only [eccVector, V3.dot, V3.cross, V3.sub_x, V3.sub_y, V3.sub_z, V3.smul_x, V3.smul_y, V3.smul_z, hR] at *
  field_simp
  linear_combination (-u ^ 2) * h2

/-- The velocity from the eccentricity vector and the angular momentum. -/
theorem dv_of_ecc (hu : u ≠ 0) (hL : dr.cross dv ≠ 0) :
    dv = (u / len (dr.cross dv) ^ 2) • (dr.cross dv).cross (eccVector u dr dv + (1 / len dr) • dr) := by
  have hl := (dot_self_pos hL).ne'
  have h2 := len_sq (dr.cross dv)
  have e1 : eccVector u dr dv + (1 / len dr) • dr = (1 / u) • dv.cross (dr.cross dv) := by
    unfold eccVector; abel
  rw [e1]
  generalize hLL : dr.cross dv = L at *
  have hd : L.dot dv = 0 := by rw [← hLL]; simp [V3.dot, V3.cross]; ring
  have e2 : L.cross ((1 / u) • dv.cross L) = (1 / u) • ((L.dot L) • dv - (L.dot dv) • L) := by
    ext <;> simp [V3.cross, V3.dot] <;> ring
  rw [e2, hd, ← h2]
  ext <;> simp <;> field_simp

/-- The elements of a state: if the normal, the eccentricity vector and the position have the components the angles say, then the
state is the one with these elements. -/
theorem state_of_frame (hu : 0 < u) (hL : dr.cross dv ≠ 0) {e i Ω ω ν : ℝ}
    (hn : dr.cross dv = len (dr.cross dv) • normal i Ω) (hE : eccVector u dr dv = e • peri i Ω ω)
    (hd : dr = len dr • (cos ν • peri i Ω ω + sin ν • along i Ω ω)) :
    dr = position (len (dr.cross dv) ^ 2 / u) e i Ω ω ν ∧ dv = velocity u (len (dr.cross dv) ^ 2 / u) e i Ω ω ν ∧
      0 < 1 + e * cos ν := by
  have hr := dot_self_pos (dr_ne_zero hL)
  have hl := dot_self_pos hL
  have fr := frame i Ω ω
  have hB := ecc_dot_dr (dv := dv) hu.ne' (dr_ne_zero hL)
  have hc : (eccVector u dr dv).dot dr = e * cos ν * len dr := by
    have h1 : dr = (len dr * cos ν) • peri i Ω ω + (len dr * sin ν) • along i Ω ω + (0:ℝ) • normal i Ω := by
      conv_lhs => rw [hd]
      ext <;> simp <;> ring
    rw [hE, show e • peri i Ω ω = e • peri i Ω ω + (0:ℝ) • along i Ω ω + (0:ℝ) • normal i Ω by simp]
    conv_lhs => rw [h1]
    rw [fr.dot]; ring
  have hq : len dr * (1 + e * cos ν) = len (dr.cross dv) ^ 2 / u := by rw [hB] at hc; linarith
  have hpos : 0 < len (dr.cross dv) ^ 2 / u := by positivity
  have hq' : 0 < 1 + e * cos ν := by
    rw [← hq] at hpos
    exact (pos_iff_pos_of_mul_pos hpos).1 hr
  refine ⟨?_, ?_, hq'⟩
  · conv_lhs => rw [hd]
    unfold position
    rw [← hq, mul_div_assoc, div_self hq'.ne', mul_one]
  · have hv := dv_of_ecc hu.ne' hL
    have h3 : (1 / len dr) • dr = cos ν • peri i Ω ω + sin ν • along i Ω ω := by
      have := congrArg (fun v => (1 / len dr) • v) hd
      simp only [smul_smul] at this
      rwa [one_div_mul_cancel hr.ne', one_smul] at this
    have hs : sqrt (u / (len (dr.cross dv) ^ 2 / u)) = u / len (dr.cross dv) := by
      rw [show u / (len (dr.cross dv) ^ 2 / u) = (u / len (dr.cross dv)) ^ 2 by field_simp, sqrt_sq (by positivity)]
    rw [h3, hE] at hv
    unfold velocity
    rw [hs]
    conv_lhs => rw [hv]
    have h4 : (dr.cross dv).cross (e • peri i Ω ω + (cos ν • peri i Ω ω + sin ν • along i Ω ω)) =
        len (dr.cross dv) • ((-sin ν) • peri i Ω ω + (e + cos ν) • along i Ω ω) := by
      conv_lhs => rw [hn]
      rw [show len (dr.cross dv) • normal i Ω = (0:ℝ) • peri i Ω ω + (0:ℝ) • along i Ω ω + len (dr.cross dv) • normal i Ω by simp,
        show e • peri i Ω ω + (cos ν • peri i Ω ω + sin ν • along i Ω ω) =
          (e + cos ν) • peri i Ω ω + sin ν • along i Ω ω + (0:ℝ) • normal i Ω by ext <;> simp <;> ring, fr.cross]
      ext <;> simp <;> ring
    rw [h4, smul_smul]
    congr 1
    field_simp

end twobody

section angles

/-- `N = z × L`. -/
def nodeVec (L : V3 ℝ) : V3 ℝ := (⟨0, 0, 1⟩ : V3 ℝ).cross L

theorem nodeVec_x (L : V3 ℝ) : (nodeVec L).x = -L.y := by simp [nodeVec, V3.cross]
theorem nodeVec_y (L : V3 ℝ) : (nodeVec L).y = L.x := by simp [nodeVec, V3.cross]
theorem nodeVec_z (L : V3 ℝ) : (nodeVec L).z = 0 := by simp [nodeVec, V3.cross]

theorem nodeVec_sq (L : V3 ℝ) : len (nodeVec L) ^ 2 = L.x ^ 2 + L.y ^ 2 := by
  rw [len_sq]; simp [V3.dot, nodeVec_x, nodeVec_y, nodeVec_z]; ring

theorem L_sq (L : V3 ℝ) : len L ^ 2 = L.x ^ 2 + L.y ^ 2 + L.z ^ 2 := by
  rw [len_sq]; simp [V3.dot]; ring

/-- The inclination the code computes. -/
noncomputable def incl (L : V3 ℝ) : ℝ := arccos (L.z / len L)

theorem incl_spec {L : V3 ℝ} (hL : L ≠ 0) : -1 ≤ L.z / len L ∧ L.z / len L ≤ 1 ∧ cos (incl L) = L.z / len L ∧
    sin (incl L) = len (nodeVec L) / len L := by
  have hl := dot_self_pos hL
  have h1 := L_sq L
  have h2 := nodeVec_sq L
  have hsum : (L.z / len L) ^ 2 + (len (nodeVec L) / len L) ^ 2 = 1 := by
    field_simp
    rw [h2, h1]; ring
  obtain ⟨a, b⟩ := abs_le_one_of hsum
  refine ⟨a, b, cos_arccos a b, ?_⟩
  rw [incl, sin_arccos, show 1 - (L.z / len L) ^ 2 = (len (nodeVec L) / len L) ^ 2 by linarith, sqrt_sq]
  exact div_nonneg (len_nonneg _) hl.le

theorem facos_incl {L : V3 ℝ} (hL : L ≠ 0) : fdiv L.z (norm L) = .ok (L.z / len L) ∧ facos (L.z / len L) = .ok (incl L) := by
  obtain ⟨a, b, -, -⟩ := incl_spec hL
  have hl := (dot_self_pos hL).ne'
  rw [norm_eq_len]
  exact ⟨by simp [fdiv, hl], by simp [facos, a, b, incl]⟩

/-- The longitude of the ascending node the code computes. -/
noncomputable def nodeAngle (L : V3 ℝ) : ℝ := MathFn.sign (nodeVec L).y * myacos ((nodeVec L).x / len (nodeVec L))

theorem nodeAngle_spec {L : V3 ℝ} (hN : len (nodeVec L) ≠ 0) :
    cos (nodeAngle L) = -L.y / len (nodeVec L) ∧ sin (nodeAngle L) = L.x / len (nodeVec L) := by
  have h2 := nodeVec_sq L
  have hp : 0 < len (nodeVec L) := lt_of_le_of_ne (len_nonneg _) (Ne.symm hN)
  have := sign_myacos (c := -L.y / len (nodeVec L)) (s := L.x / len (nodeVec L)) (t := L.x) (κ := len (nodeVec L))
    (by field_simp; rw [h2]; ring) hp (by field_simp)
  rw [nodeAngle, nodeVec_x, nodeVec_y]
  exact this

theorem normal_incl {L : V3 ℝ} (hL : L ≠ 0) (hN : len (nodeVec L) ≠ 0) : L = len L • normal (incl L) (nodeAngle L) := by
  obtain ⟨-, -, h3, h4⟩ := incl_spec hL
  obtain ⟨h5, h6⟩ := nodeAngle_spec hN
  have hl := (dot_self_pos hL).ne'
  ext <;> simp [normal, h3, h4, h5, h6] <;> field_simp

theorem node_eq {L : V3 ℝ} (hN : len (nodeVec L) ≠ 0) : node (nodeAngle L) = (nodeVec L) / len (nodeVec L) := by
  obtain ⟨h5, h6⟩ := nodeAngle_spec hN
  ext <;> simp [node, h5, h6, nodeVec_x, nodeVec_y, nodeVec_z]

/-- A unit vector of the orbital plane and the way the code computes its angle from the node. -/
theorem arg_spec {L P : V3 ℝ} (hL : L ≠ 0) (hN : len (nodeVec L) ≠ 0) (hP : P.dot P = 1) (hPL : P.dot L = 0) {E : V3 ℝ} {e : ℝ} (he : 0 < e)
    (hE : E.z = e * P.z) :
    peri (incl L) (nodeAngle L) (MathFn.sign E.z * myacos (P.dot (nodeVec L / len (nodeVec L)))) = P := by
  set i := incl L
  set Ω := nodeAngle L
  have hl := dot_self_pos hL
  have hn : 0 < len (nodeVec L) := lt_of_le_of_ne (len_nonneg _) (Ne.symm hN)
  have fr := frame i Ω 0
  have h0 : peri i Ω 0 = node Ω := by simp [peri]
  have hW : P.dot (normal i Ω) = 0 := by
    have h := normal_incl hL hN
    have h2 : P.dot L = len L * P.dot (normal i Ω) := by
      conv_lhs => rw [h]
      simp [V3.dot, i, Ω]; ring
    rw [hPL] at h2
    rcases mul_eq_zero.1 h2.symm with h3 | h3
    · exact absurd h3 hl.ne'
    · exact h3
  have hexp := fr.expand P
  rw [hW, h0] at hexp
  set c := P.dot (node Ω) with hc
  set s := P.dot (along i Ω 0) with hs
  have hcs : c ^ 2 + s ^ 2 = 1 := by
    have := fr.dot c s 0 c s 0
    rw [h0, ← hexp, hP] at this
    linarith
  have hal : along i Ω 0 = (normal i Ω).cross (node Ω) := by rw [along_eq]; simp
  have hz : P.z = s * sin i := by
    conv_lhs => rw [hexp]
    rw [hal]
    simp [node, normal, V3.cross]
    linear_combination s * sin i * sin_sq_add_cos_sq Ω
  obtain ⟨-, -, -, h4⟩ := incl_spec hL
  have hsi : 0 < sin i := by rw [show sin i = _ from h4]; positivity
  obtain ⟨a1, a2⟩ := sign_myacos (c := c) (s := s) (t := E.z) (κ := e * sin i) hcs (by positivity) (by rw [hE, hz]; ring)
  rw [← node_eq hN]
  change peri i Ω (MathFn.sign E.z * myacos c) = P
  rw [peri, a1, a2, ← hal]
  conv_rhs => rw [hexp]
  simp

end angles

section coord
variable {u : ℝ} {dr dv : V3 ℝ}

theorem dr_dot_L (dr dv : V3 ℝ) : dr.dot (dr.cross dv) = 0 := by simp [V3.dot, V3.cross]; ring

theorem ecc_triple (hu : u ≠ 0) :
    dr.dot ((dr.cross dv).cross (eccVector u dr dv)) = len (dr.cross dv) ^ 2 * dr.dot dv / u := by
  rw [len_sq]
  simp only [eccVector, V3.dot, V3.cross, V3.sub_x, V3.sub_y, V3.sub_z, V3.smul_x, V3.smul_y, V3.smul_z]
  field_simp
  ring

/-- The components of the position in a frame of the orbital plane. -/
theorem dr_in_frame (hL : dr.cross dv ≠ 0) {i Ω ω : ℝ} (hn : dr.cross dv = len (dr.cross dv) • normal i Ω) :
    dr = (dr.dot (peri i Ω ω)) • peri i Ω ω + (dr.dot (along i Ω ω)) • along i Ω ω ∧
      (dr.dot (peri i Ω ω)) ^ 2 + (dr.dot (along i Ω ω)) ^ 2 = len dr ^ 2 := by
  have fr := frame i Ω ω
  have hl := dot_self_pos hL
  have hW : dr.dot (normal i Ω) = 0 := by
    have h2 : dr.dot (dr.cross dv) = len (dr.cross dv) * dr.dot (normal i Ω) := by
      conv_lhs => rw [hn]
      simp [V3.dot]; ring
    rw [dr_dot_L] at h2
    rcases mul_eq_zero.1 h2.symm with h3 | h3
    · exact absurd h3 hl.ne'
    · exact h3
  have hexp := fr.expand dr
  rw [hW] at hexp
  constructor
  · conv_lhs => rw [hexp]
    simp
  · have := fr.dot (dr.dot (peri i Ω ω)) (dr.dot (along i Ω ω)) 0 (dr.dot (peri i Ω ω)) (dr.dot (along i Ω ω)) 0
    rw [← hexp] at this
    rw [len_sq, this]; ring

/-- The true anomaly the code computes for an eccentric orbit. -/
noncomputable def trueAnomaly (dr dv P : V3 ℝ) : ℝ := MathFn.sign (dr.dot dv) * myacos (P.dot (dr / len dr))

theorem trueAnomaly_spec (hu : 0 < u) (hL : dr.cross dv ≠ 0) {e i Ω ω : ℝ} (he : 0 < e)
    (hn : dr.cross dv = len (dr.cross dv) • normal i Ω) (hE : eccVector u dr dv = e • peri i Ω ω) :
    dr = len dr • (cos (trueAnomaly dr dv (peri i Ω ω)) • peri i Ω ω + sin (trueAnomaly dr dv (peri i Ω ω)) • along i Ω ω) := by
  obtain ⟨h1, h2⟩ := dr_in_frame (ω := ω) hL hn
  have hr := dot_self_pos (dr_ne_zero hL)
  have hl := dot_self_pos hL
  have h3 := ecc_triple (dr := dr) (dv := dv) hu.ne'
  have h4 : (dr.cross dv).cross (eccVector u dr dv) = (len (dr.cross dv) * e) • along i Ω ω := by
    rw [hE]
    conv_lhs => rw [hn]
    unfold along
    ext <;> simp [V3.cross] <;> ring
  set a := dr.dot (peri i Ω ω)
  set b := dr.dot (along i Ω ω) with hb
  have h5 : len (dr.cross dv) * e * b = len (dr.cross dv) ^ 2 * dr.dot dv / u := by
    rw [← h3, h4, hb]
    simp [V3.dot]; ring
  have h6 : dr.dot dv = u * e * len dr / len (dr.cross dv) * (b / len dr) := by
    field_simp
    field_simp at h5
    linarith
  obtain ⟨a1, a2⟩ := sign_myacos (c := a / len dr) (s := b / len dr) (t := dr.dot dv) (κ := u * e * len dr / len (dr.cross dv))
    (by field_simp; linarith) (by positivity) h6
  have h7 : (peri i Ω ω).dot (dr / len dr) = a / len dr := by
    simp [a, V3.dot]; ring
  rw [trueAnomaly, h7, a1, a2]
  conv_lhs => rw [h1]
  ext <;> simp <;> field_simp

/-- How `coord_to_orbit` computes the semi-latus rectum. -/
theorem p_via_a (hu : 0 < u) (hL : dr.cross dv ≠ 0) (h1 : len (eccVector u dr dv) ≠ 1) :
    fdiv (-u * norm dr) (norm dr * dv.norm2 - 2 * u) = .ok (-u / (2 * energy u dr dv)) ∧
      semiLatusRectum (-u / (2 * energy u dr dv)) (len (eccVector u dr dv)) = len (dr.cross dv) ^ 2 / u := by
  have hr := dot_self_pos (dr_ne_zero hL)
  have hl := dot_self_pos hL
  have h2 := ecc_sq (dv := dv) hu.ne' (dr_ne_zero hL)
  have h3 : energy u dr dv ≠ 0 := by
    intro h
    rw [h] at h2
    apply h1
    have : len (eccVector u dr dv) ^ 2 = 1 ^ 2 := by rw [h2]; norm_num
    exact (sq_eq_sq₀ (len_nonneg _) (by norm_num)).1 this
  have h4 : norm dr * dv.norm2 - 2 * u = 2 * energy u dr dv * len dr := by
    rw [norm_eq_len, energy, len_sq]
    simp only [V3.norm2, V3.dot]
    field_simp
  constructor
  · rw [h4, fdiv, if_neg (by positivity), norm_eq_len]
    congr 1
    field_simp
  · unfold semiLatusRectum
    rw [← pow_two, h2]
    field_simp
    ring

theorem p_parabola (hu : 0 < u) (hL : dr.cross dv ≠ 0) (h1 : len (eccVector u dr dv) = 1) :
    fdiv (-u * norm dr) (norm dr * dv.norm2 - 2 * u) = .nan := by
  have hr := dot_self_pos (dr_ne_zero hL)
  have hl := dot_self_pos hL
  have h2 := ecc_sq (dv := dv) hu.ne' (dr_ne_zero hL)
  have h3 : energy u dr dv = 0 := by
    rw [h1] at h2
    have : 2 * energy u dr dv * len (dr.cross dv) ^ 2 / u ^ 2 = 0 := by linarith
    have hx : len (dr.cross dv) ^ 2 / u ^ 2 ≠ 0 := by positivity
    rw [mul_div_assoc] at this
    rcases mul_eq_zero.1 this with h | h
    · linarith
    · exact absurd h hx
  have h4 : norm dr * dv.norm2 - 2 * u = 2 * energy u dr dv * len dr := by
    rw [norm_eq_len, energy, len_sq]
    simp only [V3.norm2, V3.dot]
    field_simp
  rw [h4, h3, fdiv, if_pos (by ring)]

theorem classify_eq (eps e : ℝ) :
    classify eps e = if 0 ≤ e ∧ e < 1 then .ellipse else if e > 1 then .hyperbola else if |e - 1| < eps then .parabola else .none := by
  unfold classify iseq
  simp

theorem classify_parabola {eps e : ℝ} (h0 : 0 < eps) (he : 0 ≤ e) : classify eps e = .parabola ↔ e = 1 := by
  rw [classify_eq]
  constructor
  · intro h
    by_contra hne
    rcases lt_or_gt_of_ne hne with h1 | h1
    · rw [if_pos ⟨he, h1⟩] at h; cases h
    · rw [if_neg (by rintro ⟨-, h2⟩; linarith), if_pos h1] at h; cases h
  · rintro rfl
    simp [h0]

/-- `coord_to_orbit`, once the eccentricity vector is computed. -/
theorem coordToOrbitWith_eq (viaA : OrbitType → Bool) {eps m1 m2 : ℝ} (hu : 0 < m1 + m2) (hL : dr.cross dv ≠ 0) :
    coordToOrbitWith viaA eps m1 m2 dr dv = (do
      let p ← (if viaA (classify eps (len (eccVector (m1 + m2) dr dv))) then (do
          let a ← fdiv (-(m1 + m2) * norm dr) (norm dr * dv.norm2 - 2 * (m1 + m2))
          Res.ok (semiLatusRectum a (len (eccVector (m1 + m2) dr dv))))
        else fdiv (norm (dr.cross dv) * norm (dr.cross dv)) (m1 + m2))
      let ang ← angles dr (dr.cross dv) (nodeVec (dr.cross dv)) (eccVector (m1 + m2) dr dv) (norm dr) (norm (nodeVec (dr.cross dv)))
        (norm (dr.cross dv)) (dr.dot dv) (len (eccVector (m1 + m2) dr dv))
      Res.ok { m1 := m1, m2 := m2, p := p, e := len (eccVector (m1 + m2) dr dv), i := ang.1, Omega := ang.2.1, omega := ang.2.2.1,
               nu := ang.2.2.2, type := classify eps (len (eccVector (m1 + m2) dr dv)) }) := by
  have hr := dot_self_pos (dr_ne_zero hL)
  have h1 : fdiv 1 (norm dr) = .ok (1 / norm dr) := by rw [fdiv, if_neg (by rw [norm_eq_len]; exact hr.ne')]
  have h2 : vdiv ((dv.norm2 - (m1 + m2) * (1 / norm dr)) • dr - (dr.dot dv) • dv) (m1 + m2) = .ok (eccVector (m1 + m2) dr dv) := by
    rw [vdiv, if_neg hu.ne', ecc_code hu.ne' (dr_ne_zero hL)]
  unfold coordToOrbitWith
  simp only [G, mul_one, h1, h2, Sys.Res.ok_bind]
  rw [norm_eq_len (eccVector (m1 + m2) dr dv)]
  rfl

/-- The semi-latus rectum both overloads compute, when they do. -/
theorem p_ok (viaA : OrbitType → Bool) {eps : ℝ} (h0 : 0 < eps) (hu : 0 < u) (hL : dr.cross dv ≠ 0)
    (hA : viaA .parabola = false ∨ len (eccVector u dr dv) ≠ 1) :
    (if viaA (classify eps (len (eccVector u dr dv))) then (do
          let a ← fdiv (-u * norm dr) (norm dr * dv.norm2 - 2 * u)
          Res.ok (semiLatusRectum a (len (eccVector u dr dv))))
        else fdiv (norm (dr.cross dv) * norm (dr.cross dv)) u) = Res.ok (len (dr.cross dv) ^ 2 / u) := by
  by_cases h1 : len (eccVector u dr dv) = 1
  · have h2 := (classify_parabola h0 (len_nonneg _)).2 h1
    rw [h2, hA.resolve_right (not_not.2 h1), if_neg (by simp), fdiv, if_neg hu.ne', norm_eq_len, pow_two]
  · obtain ⟨a, b⟩ := p_via_a hu hL h1
    split
    · rw [a, Sys.Res.ok_bind, b]
    · rw [fdiv, if_neg hu.ne', norm_eq_len, pow_two]

theorem vdiv_dr (hL : dr.cross dv ≠ 0) : vdiv dr (norm dr) = .ok (dr / len dr) := by
  rw [vdiv, if_neg (by rw [norm_eq_len]; exact (dot_self_pos (dr_ne_zero hL)).ne'), norm_eq_len]

/-- The angles, eccentric inclined orbit. -/
theorem angles_generic (hu : 0 < u) (hL : dr.cross dv ≠ 0) (hN : len (nodeVec (dr.cross dv)) ≠ 0) (he : len (eccVector u dr dv) ≠ 0) :
    ∃ ω ν, angles dr (dr.cross dv) (nodeVec (dr.cross dv)) (eccVector u dr dv) (norm dr) (norm (nodeVec (dr.cross dv)))
        (norm (dr.cross dv)) (dr.dot dv) (len (eccVector u dr dv)) =
        .ok (incl (dr.cross dv), nodeAngle (dr.cross dv), ω, ν) ∧
      eccVector u dr dv = len (eccVector u dr dv) • peri (incl (dr.cross dv)) (nodeAngle (dr.cross dv)) ω ∧
      dr = len dr • (cos ν • peri (incl (dr.cross dv)) (nodeAngle (dr.cross dv)) ω + sin ν • along (incl (dr.cross dv)) (nodeAngle (dr.cross dv)) ω) ∧
      |ω| ≤ π ∧ |ν| ≤ π := by
  have hep : 0 < len (eccVector u dr dv) := lt_of_le_of_ne (len_nonneg _) (Ne.symm he)
  obtain ⟨f1, f2⟩ := facos_incl hL
  set L := dr.cross dv with hLdef
  set E := eccVector u dr dv with hEdef
  set P := E / len E with hP
  have hEP : E = len E • P := by ext <;> simp [hP] <;> field_simp
  have hPP : P.dot P = 1 := by
    have := len_sq E
    simp only [hP, V3.dot, V3.div_x, V3.div_y, V3.div_z] at *
    field_simp
    linarith
  have hPL : P.dot L = 0 := by
    have := ecc_dot_L u dr dv
    rw [← hLdef, ← hEdef] at this
    have h2 : E.dot L = len E * P.dot L := by
      conv_lhs => rw [hEP]
      simp [V3.dot]; ring
    rw [this] at h2
    rcases mul_eq_zero.1 h2.symm with h3 | h3
    · exact absurd h3 he
    · exact h3
  have ha := arg_spec (E := E) hL hN hPP hPL hep (by conv_lhs => rw [hEP]
                                                     simp [mul_comm])
  refine ⟨MathFn.sign E.z * myacos (P.dot (nodeVec L / len (nodeVec L))), trueAnomaly dr dv P, ?_, ?_, ?_,
    sign_myacos_le _ _, sign_myacos_le _ _⟩
  · unfold angles
    rw [f1, Sys.Res.ok_bind, f2, Sys.Res.ok_bind, vdiv_dr hL, Sys.Res.ok_bind, if_pos he]
    dsimp only
    rw [norm_eq_len (nodeVec L), if_pos hN]
    rfl
  · rw [ha]; exact hEP
  · have := trueAnomaly_spec hu hL hep (normal_incl hL hN) (by rw [ha]; exact hEP)
    rw [ha] at this
    rw [ha]
    exact this

theorem planar_xy {L : V3 ℝ} (hN : len (nodeVec L) = 0) : L.x = 0 ∧ L.y = 0 := by
  have h := nodeVec_sq L
  rw [hN] at h
  constructor <;> nlinarith [sq_nonneg L.x, sq_nonneg L.y]

/-- A planar orbit is seen from above or from below. -/
theorem planar_incl {L : V3 ℝ} (hL : L ≠ 0) (hN : len (nodeVec L) = 0) :
    sin (incl L) = 0 ∧ ∃ s : ℝ, s ^ 2 = 1 ∧ cos (incl L) = s ∧ L.z = s * len L := by
  obtain ⟨-, -, h3, h4⟩ := incl_spec hL
  have hl := dot_self_pos hL
  rw [hN, zero_div] at h4
  obtain ⟨hx, hy⟩ := planar_xy hN
  have h := L_sq L
  refine ⟨h4, L.z / len L, ?_, h3, by field_simp⟩
  field_simp
  rw [h, hx, hy]; ring

theorem planar_normal {L : V3 ℝ} (hL : L ≠ 0) (hN : len (nodeVec L) = 0) (Ω : ℝ) : L = len L • normal (incl L) Ω := by
  obtain ⟨h1, s, -, h2, h3⟩ := planar_incl hL hN
  obtain ⟨hx, hy⟩ := planar_xy hN
  ext <;> simp [normal, h1, hx, hy, h2]
  exact h3

/-- The angles, eccentric planar orbit: the code's `omega` is that of the direction opposite to periapsis. -/
theorem angles_planar (hu : 0 < u) (hL : dr.cross dv ≠ 0) (hN : len (nodeVec (dr.cross dv)) = 0) (he : len (eccVector u dr dv) ≠ 0) :
    ∃ ω ν, angles dr (dr.cross dv) (nodeVec (dr.cross dv)) (eccVector u dr dv) (norm dr) (norm (nodeVec (dr.cross dv)))
        (norm (dr.cross dv)) (dr.dot dv) (len (eccVector u dr dv)) =
        .ok (incl (dr.cross dv), ω, ω, ν) ∧
      eccVector u dr dv = (-len (eccVector u dr dv)) • node ω ∧
      dr = len dr • (cos ν • peri (incl (dr.cross dv)) (ω + π) 0 + sin ν • along (incl (dr.cross dv)) (ω + π) 0) := by
  have hep : 0 < len (eccVector u dr dv) := lt_of_le_of_ne (len_nonneg _) (Ne.symm he)
  obtain ⟨f1, f2⟩ := facos_incl hL
  set L := dr.cross dv with hLdef
  set E := eccVector u dr dv with hEdef
  set P := E / len E with hP
  have hEz : E.z = 0 := by
    have h1 := ecc_dot_L u dr dv
    rw [← hLdef, ← hEdef] at h1
    obtain ⟨hx, hy⟩ := planar_xy hN
    simp only [V3.dot, hx, hy, mul_zero, zero_add] at h1
    rcases mul_eq_zero.1 h1 with h | h
    · exact h
    · exact absurd (by ext <;> simp [hx, hy, h]) hL
  have hsq : E.x ^ 2 + E.y ^ 2 = len E ^ 2 := by
    rw [len_sq]; simp only [V3.dot, hEz]; ring
  obtain ⟨a1, a2⟩ := neg_sign_myacos (c := -E.x / len E) (s := -E.y / len E) (t := E.y) (κ := len E)
    (by field_simp; linarith) hep (by field_simp)
  set ω := -MathFn.sign E.y * myacos (-E.x / len E) with hω
  have hEω : E = (-len E) • node ω := by
    ext <;> simp [node, a1, a2, hEz] <;> field_simp
  have hper : peri (incl L) (ω + π) 0 = P := by
    ext <;> simp [peri, node, hP, a1, a2, hEz] <;> field_simp
  refine ⟨ω, trueAnomaly dr dv P, ?_, hEω, ?_⟩
  · unfold angles
    rw [f1, Sys.Res.ok_bind, f2, Sys.Res.ok_bind, vdiv_dr hL, Sys.Res.ok_bind, if_pos he]
    dsimp only
    rw [norm_eq_len (nodeVec L), if_neg (not_not.2 hN)]
    rfl
  · have := trueAnomaly_spec (i := incl L) (Ω := ω + π) (ω := 0) hu hL hep (planar_normal hL hN _)
      (by rw [hper, ← hEdef]; ext <;> simp [hP] <;> field_simp)
    rw [hper] at this
    rw [hper]
    exact this

/-- The angles, circular inclined orbit: the code counts the true anomaly from the point a quarter turn after the node. -/
theorem angles_circular (hL : dr.cross dv ≠ 0) (hN : len (nodeVec (dr.cross dv)) ≠ 0) (he : len (eccVector u dr dv) = 0) :
    ∃ ν, angles dr (dr.cross dv) (nodeVec (dr.cross dv)) (eccVector u dr dv) (norm dr) (norm (nodeVec (dr.cross dv)))
        (norm (dr.cross dv)) (dr.dot dv) (len (eccVector u dr dv)) =
        .ok (incl (dr.cross dv), nodeAngle (dr.cross dv), 0, ν) ∧
      dr = len dr • (cos ν • along (incl (dr.cross dv)) (nodeAngle (dr.cross dv)) 0 -
        sin ν • peri (incl (dr.cross dv)) (nodeAngle (dr.cross dv)) 0) := by
  obtain ⟨f1, f2⟩ := facos_incl hL
  have hn := normal_incl hL hN
  obtain ⟨h1, h2⟩ := dr_in_frame (ω := 0) hL hn
  have hr := dot_self_pos (dr_ne_zero hL)
  set L := dr.cross dv with hLdef
  have hl := dot_self_pos hL
  have hnp : 0 < len (nodeVec L) := lt_of_le_of_ne (len_nonneg _) (Ne.symm hN)
  have hper : peri (incl L) (nodeAngle L) 0 = nodeVec L / len (nodeVec L) := by
    rw [← node_eq hN]; simp [peri]
  have hperi : L.cross (nodeVec L) = (len L * len (nodeVec L)) • along (incl L) (nodeAngle L) 0 := by
    unfold along
    rw [hper]
    have e1 : ∀ N : V3 ℝ, L.cross N = len L • (normal (incl L) (nodeAngle L)).cross N := by
      intro N
      conv_lhs => rw [hn]
      ext <;> simp [V3.cross] <;> ring
    rw [e1]
    ext <;> simp [V3.cross] <;> field_simp
  have hplen : len (L.cross (nodeVec L)) = len L * len (nodeVec L) := by
    apply len_eq_of (by positivity)
    rw [hperi]
    have := (frame (incl L) (nodeAngle L) 0).qq
    simp only [V3.dot, V3.smul_x, V3.smul_y, V3.smul_z] at *
    linear_combination (len L * len (nodeVec L)) ^ 2 * this
  have hph : vdiv (L.cross (nodeVec L)) (norm (L.cross (nodeVec L))) = .ok (along (incl L) (nodeAngle L) 0) := by
    rw [norm_eq_len, hplen, vdiv, if_neg (by positivity), hperi]
    congr 1
    ext <;> simp <;> field_simp
  set a := dr.dot (peri (incl L) (nodeAngle L) 0) with ha
  set b := dr.dot (along (incl L) (nodeAngle L) 0) with hb
  have hb' : (along (incl L) (nodeAngle L) 0).dot (dr / len dr) = b / len dr := by
    simp [hb, V3.dot]; ring
  have ha' : (nodeVec L).dot dr = -(len (nodeVec L) * len dr * (-a / len dr)) := by
    rw [ha, hper]
    simp only [V3.dot, V3.div_x, V3.div_y, V3.div_z]
    field_simp
  obtain ⟨a1, a2⟩ := neg_sign_myacos (c := b / len dr) (s := -a / len dr) (t := (nodeVec L).dot dr) (κ := len (nodeVec L) * len dr)
    (by field_simp; linarith) (by positivity) ha'
  refine ⟨-MathFn.sign ((nodeVec L).dot dr) * myacos (b / len dr), ?_, ?_⟩
  · unfold angles
    rw [f1, Sys.Res.ok_bind, f2, Sys.Res.ok_bind, vdiv_dr hL, Sys.Res.ok_bind, if_neg (not_not.2 he), norm_eq_len (nodeVec L), if_pos hN]
    dsimp only
    rw [hph, Sys.Res.ok_bind, hb']
    rfl
  · rw [a1, a2]
    conv_lhs => rw [h1]
    ext <;> simp <;> field_simp <;> ring

/-- The angles, circular planar orbit: the longitude of the position. -/
theorem angles_circular_planar (hL : dr.cross dv ≠ 0) (hN : len (nodeVec (dr.cross dv)) = 0) (he : len (eccVector u dr dv) = 0) :
    ∃ ν, angles dr (dr.cross dv) (nodeVec (dr.cross dv)) (eccVector u dr dv) (norm dr) (norm (nodeVec (dr.cross dv)))
        (norm (dr.cross dv)) (dr.dot dv) (len (eccVector u dr dv)) =
        .ok (incl (dr.cross dv), 0, 0, ν) ∧ dr = len dr • node ν := by
  obtain ⟨f1, f2⟩ := facos_incl hL
  have hr := dot_self_pos (dr_ne_zero hL)
  have hz : dr.z = 0 := by
    obtain ⟨hx, hy⟩ := planar_xy hN
    have h1 := dr_dot_L dr dv
    simp only [V3.dot, hx, hy, mul_zero, zero_add] at h1
    rcases mul_eq_zero.1 h1 with h | h
    · exact h
    · exact absurd (by ext <;> simp [hx, hy, h]) hL
  set L := dr.cross dv with hLdef
  have hsq := len_sq dr
  simp only [V3.dot, hz, mul_zero, add_zero] at hsq
  have hcs : (dr.x / len dr) ^ 2 + (dr.y / len dr) ^ 2 = 1 := by
    field_simp; linarith
  obtain ⟨a1, a2⟩ := sign_arccos (c := dr.x / len dr) (s := dr.y / len dr) (t := dr.y) (κ := len dr) hcs hr (by field_simp)
  have hd : (⟨1, 0, 0⟩ : V3 ℝ).dot (dr / len dr) = dr.x / len dr := by simp [V3.dot]
  refine ⟨MathFn.sign dr.y * arccos (dr.x / len dr), ?_, ?_⟩
  · unfold angles
    rw [f1, Sys.Res.ok_bind, f2, Sys.Res.ok_bind, vdiv_dr hL, Sys.Res.ok_bind, if_neg (not_not.2 he), norm_eq_len (nodeVec L),
      if_neg (not_not.2 hN), hd, facos, if_pos (abs_le_one_of hcs)]
    rfl
  · ext <;> simp [node, a1, a2, hz] <;> field_simp

end coord

section elements
variable {m1 m2 : ℝ} {dr dv : V3 ℝ}

/-- What `coord_to_orbit` returns when it found the angles. -/
noncomputable def elements (eps m1 m2 : ℝ) (dr dv : V3 ℝ) (i Ω ω ν : ℝ) : Kepler :=
  { m1 := m1, m2 := m2, p := len (dr.cross dv) ^ 2 / (m1 + m2), e := len (eccVector (m1 + m2) dr dv), i := i, Omega := Ω, omega := ω, nu := ν, type := classify eps (len (eccVector (m1 + m2) dr dv)) }

theorem coordToOrbitWith_ok (viaA : OrbitType → Bool) {eps : ℝ} (h0 : 0 < eps) (hu : 0 < m1 + m2) (hL : dr.cross dv ≠ 0)
    (hA : viaA .parabola = false ∨ len (eccVector (m1 + m2) dr dv) ≠ 1) {i Ω ω ν : ℝ}
    (ha : angles dr (dr.cross dv) (nodeVec (dr.cross dv)) (eccVector (m1 + m2) dr dv) (norm dr) (norm (nodeVec (dr.cross dv)))
        (norm (dr.cross dv)) (dr.dot dv) (len (eccVector (m1 + m2) dr dv)) = .ok (i, Ω, ω, ν)) :
    coordToOrbitWith viaA eps m1 m2 dr dv = .ok (elements eps m1 m2 dr dv i Ω ω ν) := by
  rw [coordToOrbitWith_eq _ hu hL, p_ok viaA h0 hu hL hA, Sys.Res.ok_bind, ha, Sys.Res.ok_bind]
  rfl

/-- Whatever the state (of non-zero angular momentum), the angles are found. -/
theorem angles_ok (hu : 0 < m1 + m2) (hL : dr.cross dv ≠ 0) :
    ∃ Ω ω ν, angles dr (dr.cross dv) (nodeVec (dr.cross dv)) (eccVector (m1 + m2) dr dv) (norm dr) (norm (nodeVec (dr.cross dv)))
        (norm (dr.cross dv)) (dr.dot dv) (len (eccVector (m1 + m2) dr dv)) = .ok (incl (dr.cross dv), Ω, ω, ν) := by
  by_cases hN : len (nodeVec (dr.cross dv)) = 0 <;> by_cases he : len (eccVector (m1 + m2) dr dv) = 0
  · obtain ⟨ν, h, -⟩ := angles_circular_planar hL hN he
    exact ⟨_, _, _, h⟩
  · obtain ⟨ω, ν, h, -⟩ := angles_planar hu hL hN he
    exact ⟨_, _, _, h⟩
  · obtain ⟨ν, h, -⟩ := angles_circular hL hN he
    exact ⟨_, _, _, h⟩
  · obtain ⟨ω, ν, h, -⟩ := angles_generic hu hL hN he
    exact ⟨_, _, _, h⟩

theorem classify_spec {eps e : ℝ} (h0 : 0 < eps) (he : 0 ≤ e) :
    (classify eps e = .ellipse ↔ e < 1) ∧ (classify eps e = .parabola ↔ e = 1) ∧ (classify eps e = .hyperbola ↔ 1 < e) := by
  rw [classify_eq]
  rcases lt_trichotomy e 1 with h | h | h
  · simp [he, h, h.ne, not_lt.2 h.le]
  · subst h; simp [h0]
  · simp [h, h.ne', not_lt.2 h.le]

end elements

theorem sameAngle_of {a b : ℝ} (h1 : cos a = cos b) (h2 : sin a = sin b) : SameAngle a b := by
  have h := Real.Angle.cos_sin_inj h1 h2
  rw [Real.Angle.angle_eq_iff_two_pi_dvd_sub] at h
  obtain ⟨n, hn⟩ := h
  exact ⟨n, by linarith⟩

theorem smul_unit_inj {a b : ℝ} {P Q : V3 ℝ} (ha : 0 < a) (hb : 0 < b) (hP : P.dot P = 1) (hQ : Q.dot Q = 1) (h : a • P = b • Q) :
    a = b ∧ P = Q := by
  have h1 : (a • P).dot (a • P) = a ^ 2 := by
    simp only [V3.dot, V3.smul_x, V3.smul_y, V3.smul_z] at *
    linear_combination a ^ 2 * hP
  have h2 : (b • Q).dot (b • Q) = b ^ 2 := by
    simp only [V3.dot, V3.smul_x, V3.smul_y, V3.smul_z] at *
    linear_combination b ^ 2 * hQ
  rw [h, h2] at h1
  have hab : a = b := ((sq_eq_sq₀ hb.le ha.le).1 h1).symm
  subst hab
  refine ⟨rfl, ?_⟩
  have := congrArg (fun v => a⁻¹ • v) h
  simpa [smul_smul, inv_mul_cancel₀ ha.ne'] using this

/-- The elements of an eccentric inclined orbit are determined by the state. -/
theorem elements_unique {u p e i Ω ω ν p' e' i' Ω' ω' ν' : ℝ} (hu : 0 < u) (hp : 0 < p) (hp' : 0 < p') (he : 0 < e) (he' : 0 < e')
    (hi : 0 < i ∧ i < π) (hi' : 0 < i' ∧ i' < π) (hq : 0 < 1 + e * cos ν) (hq' : 0 < 1 + e' * cos ν')
    (h1 : position p e i Ω ω ν = position p' e' i' Ω' ω' ν') (h2 : velocity u p e i Ω ω ν = velocity u p' e' i' Ω' ω' ν') :
    p = p' ∧ e = e' ∧ i = i' ∧ SameAngle Ω Ω' ∧ SameAngle ω ω' ∧ SameAngle ν ν' := by
  have hL := position_cross_velocity i Ω ω ν hp hu hq.ne'
  rw [h1, h2, position_cross_velocity i' Ω' ω' ν' hp' hu hq'.ne'] at hL
  obtain ⟨a1, a2⟩ := smul_unit_inj (sqrt_pos.2 (by positivity)) (sqrt_pos.2 (by positivity)) (frame i' Ω' 0).ww (frame i Ω 0).ww hL
  have hpp : p = p' := by
    have := (sqrt_inj (by positivity) (by positivity)).1 a1
    exact (mul_left_cancel₀ hu.ne' this).symm
  have hE := state_ecc i Ω ω ν hp hu hq
  rw [h1, h2, state_ecc i' Ω' ω' ν' hp' hu hq'] at hE
  obtain ⟨b1, b2⟩ := smul_unit_inj he' he (frame i' Ω' ω').pp (frame i Ω ω).pp hE
  have hci : cos i = cos i' := by
    have := congrArg V3.z a2
    simpa [normal] using this.symm
  have hii : i = i' := injOn_cos ⟨hi.1.le, hi.2.le⟩ ⟨hi'.1.le, hi'.2.le⟩ hci
  have hsi : 0 < sin i := sin_pos_of_pos_of_lt_pi hi.1 hi.2
  subst hii b1 hpp
  have hx := congrArg V3.x a2
  have hy := congrArg V3.y a2
  simp only [normal, neg_inj] at hx hy
  have hs : sin Ω = sin Ω' := (mul_right_cancel₀ hsi.ne' hx).symm
  have hc : cos Ω = cos Ω' := (mul_right_cancel₀ hsi.ne' hy).symm
  have hnode : node Ω' = node Ω := by simp [node, hs, hc]
  -- the argument of periapsis
  have fr := frame i Ω 0
  have hω : ∀ w, peri i Ω w = cos w • peri i Ω 0 + sin w • along i Ω 0 + (0:ℝ) • normal i Ω := by
    intro w
    rw [along_eq]
    simp [peri]
  have hω' : peri i Ω' ω' = peri i Ω ω' := by unfold peri; rw [hnode, a2]
  rw [hω'] at b2
  have c1 : ∀ w, (peri i Ω w).dot (peri i Ω 0) = cos w := by
    intro w
    have := fr.dot (cos w) (sin w) 0 1 0 0
    rw [← hω] at this
    simpa using this
  have c2 : ∀ w, (peri i Ω w).dot (along i Ω 0) = sin w := by
    intro w
    have := fr.dot (cos w) (sin w) 0 0 1 0
    rw [← hω] at this
    simpa using this
  have hcω : cos ω = cos ω' := by rw [← c1 ω, ← b2, c1]
  have hsω : sin ω = sin ω' := by rw [← c2 ω, ← b2, c2]
  -- the true anomaly
  have hP : peri i Ω' ω' = peri i Ω ω := by rw [hω', b2]
  have hQ : along i Ω' ω' = along i Ω ω := by unfold along; rw [a2, hP]
  have hlen := position_len i Ω ω ν hp hq
  rw [h1, position_len i Ω' ω' ν' hp hq'] at hlen
  rw [position_frame, position_frame, a2, hP, hQ] at h1
  have fr' := frame i Ω ω
  have hr : p / (1 + e' * cos ν) ≠ 0 := by positivity
  have d1 : cos ν = cos ν' := by
    have x1 := fr'.dot (p / (1 + e' * cos ν) * cos ν) (p / (1 + e' * cos ν) * sin ν) 0 1 0 0
    have x2 := fr'.dot (p / (1 + e' * cos ν') * cos ν') (p / (1 + e' * cos ν') * sin ν') 0 1 0 0
    rw [h1, x2, hlen] at x1
    apply mul_left_cancel₀ hr
    linarith
  have d2 : sin ν = sin ν' := by
    have x1 := fr'.dot (p / (1 + e' * cos ν) * cos ν) (p / (1 + e' * cos ν) * sin ν) 0 0 1 0
    have x2 := fr'.dot (p / (1 + e' * cos ν') * cos ν') (p / (1 + e' * cos ν') * sin ν') 0 0 1 0
    rw [h1, x2, hlen] at x1
    apply mul_left_cancel₀ hr
    linarith
  exact ⟨rfl, rfl, rfl, sameAngle_of hc hs, sameAngle_of hcω hsω, sameAngle_of d1 d2⟩

end SpaceHub.Orbit
