import Verif.Spec.Units
import Mathlib.Analysis.Real.Pi.Bounds

/-
C112: the units and constants fit together.
-/

set_option autoImplicit false

namespace SpaceHub.Units
open Spec

theorem sec_pos : 0 < sec := by
  unfold sec Units.min hr day year lit
  have := Real.pi_pos
  positivity

theorem m_pos : 0 < m := by unfold m km AU lit; norm_num

theorem kg_pos : 0 < kg := by unfold kg Ms lit; norm_num

/-- **C112, units.** Every unit is what its name says: the number of metres, seconds, kilograms, metres per second or radians of the table `Spec.si`. -/
theorem C112_units (u : Name) : u.value = si u * base (dim u) := by
  have hp : Real.pi ≠ 0 := Real.pi_ne_zero
  cases u <;>
    simp only [Name.value, si, dim, base, Units.AU, Units.Ms, Units.year, Units.deg, Units.kyr, Units.Myr, Units.Gyr, Units.month, Units.day, Units.hr, Units.min, Units.sec,
      Units.tHubble, Units.kg, Units.mp, Units.km, Units.m, Units.cm, Units.PC, Units.Rs, Units.Re, Units.Rj, Units.kms, Units.cms, Units.Me, Units.Mj, Units.Mmoon, lit] <;>
    first
    | (norm_num; done)
    | (field_simp; done)
    | (field_simp; norm_num)

theorem value_pos (u : Name) : 0 < u.value := by
  rw [C112_units]
  have h1 := sec_pos
  have h2 := m_pos
  have h3 := kg_pos
  have h4 := Real.pi_pos
  cases u <;> simp only [si, dim, base] <;> positivity

/-- **C112, conversions.** A number written with a unit (`x_unit`), divided by a unit `w` of the same kind, is the number of `w`s; with the same unit, the number written. -/
theorem C112_conversion (x : ℝ) (u w : Name) (h : dim u = dim w) : lit x u.value / w.value = x * (si u / si w) ∧ lit x u.value / u.value = x := by
  have hu := value_pos u
  have hw := value_pos w
  have eu := C112_units u
  have ew := C112_units w
  rw [h] at eu
  have hb : base (dim w) ≠ 0 := fun h0 => by rw [ew, h0, mul_zero] at hw; exact lt_irrefl _ hw
  have hs : si w ≠ 0 := fun h0 => by rw [ew, h0, zero_mul] at hw; exact lt_irrefl _ hw
  constructor
  · unfold lit
    rw [eu, ew]
    field_simp
  · unfold lit
    field_simp

/-- **C112, Kepler's third law.** A massless body at 1 AU from the sun returns after one `year`. -/
theorem C112_kepler : Orbit.period Ms 0 AU = .ok year := by
  unfold Orbit.period Ms AU year
  rw [if_pos one_pos]
  have h1 : Orbit.fdiv ((1 : ℝ) * 1 * 1) ((1 + 0) * Orbit.G) = .ok 1 := by
    unfold Orbit.fdiv Orbit.G
    norm_num
  have h2 : Orbit.fsqrt 1 = .ok 1 := by
    unfold Orbit.fsqrt
    norm_num
  rw [h1]
  show Res.bind (Orbit.fsqrt 1) _ = _
  rw [h2]
  show Res.ok (2 * Real.pi * 1) = _
  rw [mul_one]

/-- the squared number of seconds in the unit of time of the library -/
theorem second_sq : sec ^ 2 = Real.pi ^ 2 * (2 / 365.25636042 / 24 / 60 / 60) ^ 2 := by
  unfold sec Units.min hr day year lit
  ring

theorem pi_sq : 9.86960 < Real.pi ^ 2 ∧ Real.pi ^ 2 < 9.86961 := by
  have p1 := Real.pi_gt_d6
  have p2 := Real.pi_lt_d6
  constructor <;> nlinarith

/-- **C112, constants.** The speed of light and Boltzmann's constant in SI units, and the gravitational constant within 0.005 % of 6.6743 · 10⁻¹¹. -/
theorem C112_constants : C = 299792458 * (m / sec) ∧ kB = 1.38064852 / 10 ^ 23 * (m ^ 2 * kg / sec ^ 2) ∧
    6.6740 / 10 ^ 11 * (m ^ 3 / (kg * sec ^ 2)) < G ∧ G < 6.6742 / 10 ^ 11 * (m ^ 3 / (kg * sec ^ 2)) := by
  obtain ⟨p1, p2⟩ := pi_sq
  have hpos : (0 : ℝ) < kg * (Real.pi ^ 2 * (2 / 365.25636042 / 24 / 60 / 60) ^ 2) := by
    have := kg_pos
    have := Real.pi_pos
    positivity
  refine ⟨?_, ?_, ?_, ?_⟩
  · unfold C kms km
    unfold m km lit
    ring
  · unfold kB
    ring
  · unfold G
    rw [second_sq, mul_div_assoc', div_lt_one hpos]
    unfold m km AU kg Ms lit
    norm_num at p1 p2 ⊢
    linarith
  · unfold G
    rw [second_sq, mul_div_assoc', one_lt_div hpos]
    unfold m km AU kg Ms lit
    norm_num at p1 p2 ⊢
    linarith

/-- **C112 is false of the code in one clause**: `kB_on_mp` is not `kB / mp`, but 0.1 % smaller. -/
theorem C112_kB_on_mp_wrong : kBOnMp * 1.001 < kB / mp ∧ kB / mp < kBOnMp * 1.0011 := by
  obtain ⟨p1, p2⟩ := pi_sq
  have e : kB / mp = 1.38064852e-23 / 1.67262192e-27 * m ^ 2 / (Real.pi ^ 2 * (2 / 365.25636042 / 24 / 60 / 60) ^ 2) := by
    have h := kg_pos.ne'
    have hs := sec_pos.ne'
    rw [← second_sq]
    unfold kB mp lit
    field_simp
  have hpos : (0 : ℝ) < Real.pi ^ 2 * (2 / 365.25636042 / 24 / 60 / 60) ^ 2 := by
    have := Real.pi_pos
    positivity
  rw [e, lt_div_iff₀ hpos, div_lt_iff₀ hpos]
  unfold kBOnMp m km AU lit
  constructor
  · norm_num at p1 p2 ⊢
    linarith
  · norm_num at p1 p2 ⊢
    linarith

/-- concretely: a million years in months, a parsec in astronomical units -/
example : lit 1 Name.Myr.value / Name.month.value = 12 * 10 ^ 6 ∧ lit 1 Name.PC.value / Name.AU.value = 648000 / Real.pi := by
  constructor
  · rw [(C112_conversion 1 .Myr .month rfl).1]
    norm_num [si]
  · rw [(C112_conversion 1 .PC .AU rfl).1]
    simp only [si]
    ring

end SpaceHub.Units
