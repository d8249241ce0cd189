import Verif.Proof.Digits
import Verif.Props.Core
import Verif.Props.RoundedRun
import Verif.Proof.Variation

/-
C115: rounding errors of energies, angular momenta, centres of mass and accelerations.
-/

set_option autoImplicit false

namespace SpaceHub.Rounded
open SpaceHub V3 Force Core Spec Finset Sys Props

variable {u : ℝ} {A : Arith}

/-! ### parts -/

theorem rel_sumsq (hA : Accurate A u) (h0 : 0 ≤ u) (h1 : u < 1) {a b : V3 ℝ} {k : Nat} (hx : Rel u k a.x b.x) (hy : Rel u k a.y b.y) (hz : Rel u k a.z b.z) :
    Rel u (2 * k + 3) (dot a a) (A.add (A.add (A.mul b.x b.x) (A.mul b.y b.y)) (A.mul b.z b.z)) := by
  have x2 := hx.mul hA h0 h1 hx
  have y2 := hy.mul hA h0 h1 hy
  have z2 := hz.mul hA h0 h1 hz
  have s := (x2.add hA h0 h1 y2 (mul_self_nonneg _) (mul_self_nonneg _)).add hA h0 h1 (z2.mono h0 h1 (Nat.le_succ _)) (add_nonneg (mul_self_nonneg _) (mul_self_nonneg _))
    (mul_self_nonneg _)
  exact s.mono h0 h1 (by omega)

theorem dot_nonneg (a : V3 ℝ) : 0 ≤ dot a a := by
  unfold dot
  nlinarith [mul_self_nonneg a.x, mul_self_nonneg a.y, mul_self_nonneg a.z]

theorem rel_norm (hA : Accurate A u) (h0 : 0 ≤ u) (h1 : u < 1) {a b : V3 ℝ} {k : Nat} (hx : Rel u k a.x b.x) (hy : Rel u k a.y b.y) (hz : Rel u k a.z b.z) :
    Rel u (2 * k + 4) (len a) (norm A b) := (rel_sumsq hA h0 h1 hx hy hz).sqrt hA h0 h1 (dot_nonneg a)

theorem rel_dist (hA : Accurate A u) (h0 : 0 ≤ u) (h1 : u < 1) (a b : V3 ℝ) : Rel u 6 (len (a - b)) (norm A (subV A a b)) :=
  rel_norm hA h0 h1 (k := 1) (Rel.round h0 h1 (hA.sub _ _)) (Rel.round h0 h1 (hA.sub _ _)) (Rel.round h0 h1 (hA.sub _ _))

theorem len_ne {a : V3 ℝ} (h : a ≠ 0) : len a ≠ 0 := by
  refine (Real.sqrt_pos.2 (lt_of_le_of_ne (dot_nonneg a) fun e => h ?_)).ne'
  have e' : a.x * a.x + a.y * a.y + a.z * a.z = 0 := e.symm
  have hx : a.x = 0 := by nlinarith [mul_self_nonneg a.x, mul_self_nonneg a.y, mul_self_nonneg a.z]
  have hy : a.y = 0 := by nlinarith [mul_self_nonneg a.x, mul_self_nonneg a.y, mul_self_nonneg a.z]
  have hz : a.z = 0 := by nlinarith [mul_self_nonneg a.x, mul_self_nonneg a.y, mul_self_nonneg a.z]
  exact V3.ext hx hy hz

theorem len_nonneg' (a : V3 ℝ) : 0 ≤ len a := Real.sqrt_nonneg _

/-- a term of the potential energy -/
theorem rel_term (hA : Accurate A u) (h0 : 0 ≤ u) (h1 : u < 1) (m m' : ℝ) {r r' : ℝ} (h : Rel u 6 r r') (hr : r ≠ 0) :
    Rel u 8 (m * m' / r) (A.div (A.mul m m') r') :=
  ((Rel.refl h0 h1 0 m).mul hA h0 h1 (Rel.refl h0 h1 0 m')).div hA h0 h1 h hr

theorem sum_gauss (n : Nat) : ∑ i ∈ Ico 0 n, (n - (i + 1)) = n * (n - 1) / 2 := by
  rw [Nat.Ico_zero_eq_range, ← Finset.sum_range_id, ← Finset.sum_range_reflect (fun i => i)]
  exact sum_congr rfl fun i _ => by omega

/-! ### energies -/

theorem kinetic_wide (hA : Accurate A u) (h0 : 0 ≤ u) (h1 : u < 1) (P : Particles) (hm : ∀ i, i < P.num → 0 ≤ P.mass i) :
    Rel u (P.num + 6) (∑ i ∈ range P.num, 1 / 2 * P.mass i * dot (P.vel i) (P.vel i)) (kineticR A P) := by
  have t : ∀ i, 0 ≤ i → i < P.num → Wide u 4 (dot (P.vel i) (P.vel i) * P.mass i) (dot (P.vel i) (P.vel i) * P.mass i)
      (A.mul (dotR A (P.vel i) (P.vel i)) (P.mass i)) := fun i _ hi => by
    have r := (rel_sumsq hA h0 h1 (Rel.refl h0 h1 0 (P.vel i).x) (Rel.refl h0 h1 0 (P.vel i).y) (Rel.refl h0 h1 0 (P.vel i).z)).mul hA h0 h1 (Rel.refl h0 h1 0 (P.mass i))
    have w := r.wide
    rwa [abs_of_nonneg (mul_nonneg (dot_nonneg _) (hm i hi))] at w
  have s := (Wide.loop hA h0 h1 4 0 P.num t le_rfl (Wide.zero h0 h1 4)).toRel
  have l : Rel u 1 ((1 / 2 : ℚ) : ℝ) (A.lit (1 / 2)) := Rel.round h0 h1 (hA.lit _)
  have e := (l.mul hA h0 h1 s).mono h0 h1 (show _ ≤ P.num + 6 by omega)
  rw [zero_add, Nat.Ico_zero_eq_range, mul_sum] at e
  refine cast ?_ e
  congr 1
  refine sum_congr rfl fun i _ => ?_
  push_cast
  ring

/-- a sum of negative terms -/
theorem neg_rel {k : Nat} {s b : ℝ} (h : Wide u k (-s) s b) : Rel u k (-s) b := by
  have e := h.neg
  rw [neg_neg] at e
  obtain ⟨θ, f, e⟩ := e.toRel
  exact ⟨θ, f, by linarith⟩

theorem potential_wide (hA : Accurate A u) (h0 : 0 ≤ u) (h1 : u < 1) (G : ℝ) (P : Particles) (hm : ∀ i, i < P.num → 0 ≤ P.mass i)
    (hd : ∀ i j, i < j → j < P.num → P.pos i ≠ P.pos j) : Rel u (P.num * (P.num - 1) / 2 + 9) (potential G P.num P.mass P.pos) (potentialR A G P) := by
  have s := Wide.sum (u := u) (K := 8) (fun i => P.num - (i + 1)) (t := fun i => ∑ j ∈ Ico (i + 1) P.num, -(P.mass i * P.mass j / len (P.pos i - P.pos j)))
    (M := fun i => ∑ j ∈ Ico (i + 1) P.num, P.mass i * P.mass j / len (P.pos i - P.pos j))
    (F := fun i e => forLoop (i + 1) P.num (fun j e => A.sub e (A.div (A.mul (P.mass i) (P.mass j)) (norm A (subV A (P.pos i) (P.pos j))))) e) 0 P.num
    (fun i _ hi c a m b hc hw => Wide.loop_sub hA h0 h1 8 (i + 1) P.num (fun j hj hj' => by
      have w := (rel_term hA h0 h1 (P.mass i) (P.mass j) (rel_dist hA h0 h1 (P.pos i) (P.pos j)) (len_ne (sub_ne_zero.2 (hd i j (by omega) hj')))).wide
      rwa [abs_of_nonneg (div_nonneg (mul_nonneg (hm i hi) (hm j hj')) (len_nonneg' _))] at w) hc hw) le_rfl (Wide.zero h0 h1 8)
  rw [zero_add, zero_add, sum_gauss] at s
  have e0 : (∑ i ∈ Ico 0 P.num, ∑ j ∈ Ico (i + 1) P.num, -(P.mass i * P.mass j / len (P.pos i - P.pos j))) =
      -∑ i ∈ Ico 0 P.num, ∑ j ∈ Ico (i + 1) P.num, P.mass i * P.mass j / len (P.pos i - P.pos j) := by
    simp only [sum_neg_distrib]
  rw [e0] at s
  have e := ((neg_rel s).mul hA h0 h1 (Rel.refl h0 h1 0 G)).mono h0 h1 (show _ ≤ P.num * (P.num - 1) / 2 + 9 by omega)
  refine cast ?_ e
  rw [potential_eq, neg_mul, sum_mul]
  congr 1
  rw [← sum_neg_distrib]
  refine sum_congr rfl fun i _ => ?_
  rw [sum_mul, ← sum_neg_distrib]
  exact sum_congr rfl fun j _ => by ring

/-! ### the property -/

/-- **C115, energies.** For every system of particles with masses that are not negative, at different places: the kinetic energy and the potential energy are
computed with relative errors of at most about `(n + 6) u` and `(n (n - 1) / 2 + 9) u`, `u` the relative error of an operation, and the total energy
with an error of at most about `(n (n + 1) / 2 + 10) u` times the sum of their sizes.  This holds whatever the magnitudes of masses, distances and
velocities are. -/
theorem C115_energies (hA : Accurate A u) (h0 : 0 ≤ u) (G : ℝ) (P : Particles) (hu : ((P.num * (P.num - 1) / 2 + P.num + 10 : ℕ) : ℝ) * u < 1)
    (hm : ∀ i, i < P.num → 0 ≤ P.mass i) (hd : ∀ i j, i < j → j < P.num → P.pos i ≠ P.pos j) :
    let K := ∑ i ∈ range P.num, 1 / 2 * P.mass i * dot (P.vel i) (P.vel i)
    let V := potential G P.num P.mass P.pos
    |kineticR A P - K| ≤ gam u (P.num + 6) * K ∧ |potentialR A G P - V| ≤ gam u (P.num * (P.num - 1) / 2 + 9) * |V| ∧
    |totalEnergyR A G P - (V + K)| ≤ gam u (P.num * (P.num - 1) / 2 + P.num + 10) * (|V| + K) := by
  intro K V
  have mono : ∀ j : Nat, j ≤ P.num * (P.num - 1) / 2 + P.num + 10 → (j : ℝ) * u < 1 := fun j hj =>
    lt_of_le_of_lt (mul_le_mul_of_nonneg_right (by exact_mod_cast hj) h0) hu
  have h1 : u < 1 := by have := mono 1 (by omega); simpa using this
  have k := kinetic_wide hA h0 h1 P hm
  have v := potential_wide hA h0 h1 G P hm hd
  have hK : 0 ≤ K := sum_nonneg fun i hi => mul_nonneg (mul_nonneg (by norm_num) (hm i (mem_range.1 hi))) (dot_nonneg _)
  refine ⟨?_, v.bound h0 h1 (mono _ (by omega)), ?_⟩
  · have := k.bound h0 h1 (mono _ (by omega))
    rwa [abs_of_nonneg hK] at this
  · have w := ((v.wide.mono h0 h1 (show _ ≤ P.num * (P.num - 1) / 2 + P.num + 9 by omega)).add hA h0 h1
      (k.wide.mono h0 h1 (show _ ≤ P.num * (P.num - 1) / 2 + P.num + 9 by omega))).bound h0 h1 (mono _ le_rfl)
    rwa [abs_of_nonneg hK] at w

theorem erase_split {M : Type} [AddCommMonoid M] (n k : Nat) (hk : k < n) (f : Nat → M) : ∑ j ∈ (range n).erase k, f j = ∑ j ∈ Ico 0 k, f j + ∑ j ∈ Ico (k + 1) n, f j := by
  rw [← sum_union]
  · refine sum_congr ?_ fun _ _ => rfl
    ext j; simp; omega
  · rw [disjoint_left]
    intro j; simp; omega

/-- one component of the accelerations -/
theorem acc_comp (hA : Accurate A u) (h0 : 0 ≤ u) (P : Particles) (hu : ((P.num + 23 : ℕ) : ℝ) * u < 1) (hd : ∀ i j, i < j → j < P.num → P.pos i ≠ P.pos j) (k : Nat)
    (hk : k < P.num) (c : V3 ℝ → ℝ) (cadd : ∀ A a b, c (addV A a b) = A.add (c a) (c b)) (csub : ∀ A a b, c (subV A a b) = A.sub (c a) (c b))
    (cminus : ∀ a b, c (a - b) = c a - c b) (csmul : ∀ (t : ℝ) a, c (t • a) = c a * t) (c0 : c 0 = 0)
    (cmk : ∀ a f g, c ⟨A.mul (A.mul a.x f) g, A.mul (A.mul a.y f) g, A.mul (A.mul a.z f) g⟩ = A.mul (A.mul (c a) f) g) :
    |c (acc A P k) - ∑ j ∈ (range P.num).erase k, c (newton (P.mass j) (P.pos k) (P.pos j))| ≤
      gam u (P.num + 23) * ∑ j ∈ (range P.num).erase k, |c (newton (P.mass j) (P.pos k) (P.pos j))| := by
  have h1 : u < 1 := by
    refine lt_of_le_of_lt ?_ hu
    push_cast
    nlinarith [show (0 : ℝ) ≤ P.num from Nat.cast_nonneg _]
  have hne : ∀ i j, i < P.num → j < P.num → i ≠ j → P.pos i - P.pos j ≠ 0 := fun i j hi hj hij => by
    rcases Nat.lt_or_gt_of_ne hij with h | h
    · exact sub_ne_zero.2 (hd i j h hj)
    · exact sub_ne_zero.2 (hd j i h hi).symm
  -- the factor of a pair
  have fac : ∀ i j, i < P.num → j < P.num → i ≠ j → ∀ m, Rel u 24 (c (P.pos j - P.pos i) * (1 / (len (P.pos j - P.pos i) * len (P.pos j - P.pos i) * len (P.pos j - P.pos i))) * m)
      (A.mul (A.mul (c (subV A (P.pos j) (P.pos i))) (A.div 1 (A.mul (A.mul (norm A (subV A (P.pos j) (P.pos i))) (norm A (subV A (P.pos j) (P.pos i))))
        (norm A (subV A (P.pos j) (P.pos i)))))) m) := by
    intro i j hi hj hij m
    have r := rel_dist hA h0 h1 (P.pos j) (P.pos i)
    have l := len_ne (hne j i hj hi hij.symm)
    have r3 := (r.mul hA h0 h1 r).mul hA h0 h1 r
    have q := (Rel.refl h0 h1 0 (1 : ℝ)).div hA h0 h1 r3 (mul_ne_zero (mul_ne_zero l l) l)
    have d : Rel u 1 (c (P.pos j - P.pos i)) (c (subV A (P.pos j) (P.pos i))) := by
      rw [cminus, csub]
      exact Rel.round h0 h1 (hA.sub _ _)
    exact (d.mul hA h0 h1 q).mul hA h0 h1 (Rel.refl h0 h1 0 m)
  have val : ∀ i j m, c (P.pos j - P.pos i) * (1 / (len (P.pos j - P.pos i) * len (P.pos j - P.pos i) * len (P.pos j - P.pos i))) * m = c (newton m (P.pos i) (P.pos j)) := by
    intro i j m
    rw [newton, csmul]
    ring
  -- entry `k`
  have ent : acc A P k = forLoop (k + 1) P.num (fun j x => addV A x
        ⟨A.mul (A.mul (subV A (P.pos j) (P.pos k)).x (A.div 1 (A.mul (A.mul (norm A (subV A (P.pos j) (P.pos k))) (norm A (subV A (P.pos j) (P.pos k)))) (norm A (subV A (P.pos j) (P.pos k)))))) (P.mass j),
         A.mul (A.mul (subV A (P.pos j) (P.pos k)).y (A.div 1 (A.mul (A.mul (norm A (subV A (P.pos j) (P.pos k))) (norm A (subV A (P.pos j) (P.pos k)))) (norm A (subV A (P.pos j) (P.pos k)))))) (P.mass j),
         A.mul (A.mul (subV A (P.pos j) (P.pos k)).z (A.div 1 (A.mul (A.mul (norm A (subV A (P.pos j) (P.pos k))) (norm A (subV A (P.pos j) (P.pos k)))) (norm A (subV A (P.pos j) (P.pos k)))))) (P.mass j)⟩)
      (forLoop 0 k (fun i x => subV A x
        ⟨A.mul (A.mul (subV A (P.pos k) (P.pos i)).x (A.div 1 (A.mul (A.mul (norm A (subV A (P.pos k) (P.pos i))) (norm A (subV A (P.pos k) (P.pos i)))) (norm A (subV A (P.pos k) (P.pos i)))))) (P.mass i),
         A.mul (A.mul (subV A (P.pos k) (P.pos i)).y (A.div 1 (A.mul (A.mul (norm A (subV A (P.pos k) (P.pos i))) (norm A (subV A (P.pos k) (P.pos i)))) (norm A (subV A (P.pos k) (P.pos i)))))) (P.mass i),
         A.mul (A.mul (subV A (P.pos k) (P.pos i)).z (A.div 1 (A.mul (A.mul (norm A (subV A (P.pos k) (P.pos i))) (norm A (subV A (P.pos k) (P.pos i)))) (norm A (subV A (P.pos k) (P.pos i)))))) (P.mass i)⟩)
        0) :=
    pair_entry (fun i j x => addV A x ⟨A.mul (A.mul (subV A (P.pos j) (P.pos i)).x (A.div 1 (A.mul (A.mul (norm A (subV A (P.pos j) (P.pos i))) (norm A (subV A (P.pos j) (P.pos i)))) (norm A (subV A (P.pos j) (P.pos i)))))) (P.mass j), A.mul (A.mul (subV A (P.pos j) (P.pos i)).y (A.div 1 (A.mul (A.mul (norm A (subV A (P.pos j) (P.pos i))) (norm A (subV A (P.pos j) (P.pos i)))) (norm A (subV A (P.pos j) (P.pos i)))))) (P.mass j), A.mul (A.mul (subV A (P.pos j) (P.pos i)).z (A.div 1 (A.mul (A.mul (norm A (subV A (P.pos j) (P.pos i))) (norm A (subV A (P.pos j) (P.pos i)))) (norm A (subV A (P.pos j) (P.pos i)))))) (P.mass j)⟩)
      (fun i j x => subV A x ⟨A.mul (A.mul (subV A (P.pos j) (P.pos i)).x (A.div 1 (A.mul (A.mul (norm A (subV A (P.pos j) (P.pos i))) (norm A (subV A (P.pos j) (P.pos i)))) (norm A (subV A (P.pos j) (P.pos i)))))) (P.mass i), A.mul (A.mul (subV A (P.pos j) (P.pos i)).y (A.div 1 (A.mul (A.mul (norm A (subV A (P.pos j) (P.pos i))) (norm A (subV A (P.pos j) (P.pos i)))) (norm A (subV A (P.pos j) (P.pos i)))))) (P.mass i), A.mul (A.mul (subV A (P.pos j) (P.pos i)).z (A.div 1 (A.mul (A.mul (norm A (subV A (P.pos j) (P.pos i))) (norm A (subV A (P.pos j) (P.pos i)))) (norm A (subV A (P.pos j) (P.pos i)))))) (P.mass i)⟩) P.num k (fun _ => 0) hk
  rw [ent]
  rw [forLoop_map c _ (fun j x => A.add x (A.mul (A.mul (c (subV A (P.pos j) (P.pos k))) (A.div 1 (A.mul (A.mul (norm A (subV A (P.pos j) (P.pos k))) (norm A (subV A (P.pos j) (P.pos k))))
      (norm A (subV A (P.pos j) (P.pos k)))))) (P.mass j))) (fun j x => by rw [cadd, cmk]),
    forLoop_map c _ (fun i x => A.sub x (A.mul (A.mul (c (subV A (P.pos k) (P.pos i))) (A.div 1 (A.mul (A.mul (norm A (subV A (P.pos k) (P.pos i))) (norm A (subV A (P.pos k) (P.pos i))))
      (norm A (subV A (P.pos k) (P.pos i)))))) (P.mass i))) (fun i x => by rw [csub, cmk]), c0]
  have w1 := Wide.loop_sub hA h0 h1 24 0 k (fun i _ hi => (fac i k (by omega) hk (by omega) (P.mass i)).wide) le_rfl (Wide.zero h0 h1 24)
  have w2 := (Wide.loop hA h0 h1 24 (k + 1) P.num (fun j hj hj' => (fac k j hk hj' (by omega) (P.mass j)).wide) (by omega) w1).mono h0 h1 (show _ ≤ P.num + 23 by omega)
  have flip : ∀ i, c (newton (P.mass i) (P.pos k) (P.pos i)) =
      -(c (P.pos k - P.pos i) * (1 / (len (P.pos k - P.pos i) * len (P.pos k - P.pos i) * len (P.pos k - P.pos i))) * P.mass i) := by
    intro i
    have hl : len (P.pos k - P.pos i) = len (P.pos i - P.pos k) := by
      unfold len dot
      congr 1
      simp only [V3.sub_x, V3.sub_y, V3.sub_z]
      ring
    rw [← val, hl, cminus, cminus]
    ring
  have b := w2.bound h0 h1 hu
  rw [erase_split _ _ hk, erase_split _ _ hk]
  rw [zero_add, zero_add] at b
  have s1 : ∑ i ∈ Ico 0 k, -(c (P.pos k - P.pos i) * (1 / (len (P.pos k - P.pos i) * len (P.pos k - P.pos i) * len (P.pos k - P.pos i))) * P.mass i) =
      ∑ i ∈ Ico 0 k, c (newton (P.mass i) (P.pos k) (P.pos i)) := sum_congr rfl fun i _ => (flip i).symm
  have s2 : ∑ i ∈ Ico 0 k, |c (P.pos k - P.pos i) * (1 / (len (P.pos k - P.pos i) * len (P.pos k - P.pos i) * len (P.pos k - P.pos i))) * P.mass i| =
      ∑ i ∈ Ico 0 k, |c (newton (P.mass i) (P.pos k) (P.pos i))| := sum_congr rfl fun i _ => by rw [flip, abs_neg]
  rw [s1, s2] at b
  simpa only [val] using b

/-- **C115, accelerations.** For every system of particles at different places, every component of the acceleration of every particle is computed with an
error of at most about `(n + 23) u` times the sum of the sizes of that component of the accelerations by the single other particles, given by Newton's law. -/
theorem C115_accelerations (hA : Accurate A u) (h0 : 0 ≤ u) (P : Particles) (hu : ((P.num + 23 : ℕ) : ℝ) * u < 1) (hd : ∀ i j, i < j → j < P.num → P.pos i ≠ P.pos j)
    (k : Nat) (hk : k < P.num) :
    |(acc A P k).x - ∑ j ∈ (range P.num).erase k, (newton (P.mass j) (P.pos k) (P.pos j)).x| ≤
      gam u (P.num + 23) * ∑ j ∈ (range P.num).erase k, |(newton (P.mass j) (P.pos k) (P.pos j)).x| ∧
    |(acc A P k).y - ∑ j ∈ (range P.num).erase k, (newton (P.mass j) (P.pos k) (P.pos j)).y| ≤
      gam u (P.num + 23) * ∑ j ∈ (range P.num).erase k, |(newton (P.mass j) (P.pos k) (P.pos j)).y| ∧
    |(acc A P k).z - ∑ j ∈ (range P.num).erase k, (newton (P.mass j) (P.pos k) (P.pos j)).z| ≤
      gam u (P.num + 23) * ∑ j ∈ (range P.num).erase k, |(newton (P.mass j) (P.pos k) (P.pos j)).z| :=
  ⟨acc_comp hA h0 P hu hd k hk V3.x (fun _ _ _ => rfl) (fun _ _ _ => rfl) (fun _ _ => rfl) (fun _ _ => rfl) rfl (fun _ _ _ => rfl),
    acc_comp hA h0 P hu hd k hk V3.y (fun _ _ _ => rfl) (fun _ _ _ => rfl) (fun _ _ => rfl) (fun _ _ => rfl) rfl (fun _ _ _ => rfl),
    acc_comp hA h0 P hu hd k hk V3.z (fun _ _ _ => rfl) (fun _ _ _ => rfl) (fun _ _ => rfl) (fun _ _ => rfl) rfl (fun _ _ _ => rfl)⟩

/-- **C115, potential energy of chain systems** (with at least two particles), from the stored chain coordinates and positions: the error is at most
about `(n (n + 3) / 2 + 9) u` of the value that exact arithmetic gives for the same coordinates, if none of the separations is zero. -/
theorem C115_chain (hA : Accurate A u) (h0 : 0 ≤ u) (G : ℝ) (P : Particles) (C : ChainView) (hn : 2 ≤ P.num) (hu : ((P.num * (P.num - 1) / 2 + 2 * P.num + 9 : ℕ) : ℝ) * u < 1)
    (hm : ∀ i, i < P.num → 0 ≤ P.mass (C.index i)) (hd1 : ∀ i, i + 1 < P.num → C.chainPos i ≠ 0)
    (hd2 : ∀ i, i + 2 < P.num → C.chainPos i + C.chainPos (i + 1) ≠ 0)
    (hd3 : ∀ i j, i + 3 ≤ j → j < P.num → P.pos (C.index j) ≠ P.pos (C.index i)) :
    ∃ V, potentialChain G P C = .ok V ∧ |potentialChainR A G P C - V| ≤ gam u (P.num * (P.num - 1) / 2 + 2 * P.num + 9) * |V| := by
  have h1 : u < 1 := by
    refine lt_of_le_of_lt ?_ hu
    push_cast
    have a : (0 : ℝ) ≤ ((P.num * (P.num - 1) / 2 : ℕ) : ℝ) := Nat.cast_nonneg _
    have b : (0 : ℝ) ≤ (P.num : ℝ) := Nat.cast_nonneg _
    nlinarith
  let t1 : Nat → ℝ := fun i => P.mass (C.index i) * P.mass (C.index (i + 1)) / len (C.chainPos i)
  let t2 : Nat → ℝ := fun i => P.mass (C.index i) * P.mass (C.index (i + 2)) / len (C.chainPos i + C.chainPos (i + 1))
  let t3 : Nat → Nat → ℝ := fun i j => P.mass (C.index i) * P.mass (C.index j) / len (P.pos (C.index j) - P.pos (C.index i))
  have w1 := Wide.loop_sub hA h0 h1 8 0 (P.num - 1) (t := t1) (M := t1)
    (t' := fun i => A.div (A.mul (P.mass (C.index i)) (P.mass (C.index (i + 1)))) (norm A (C.chainPos i))) (fun i _ hi => by
      have r : Rel u 6 (len (C.chainPos i)) (norm A (C.chainPos i)) :=
        (rel_norm hA h0 h1 (k := 0) (Rel.refl h0 h1 0 _) (Rel.refl h0 h1 0 _) (Rel.refl h0 h1 0 _)).mono h0 h1 (by omega)
      have w := (rel_term hA h0 h1 (P.mass (C.index i)) (P.mass (C.index (i + 1))) r (len_ne (hd1 i (by omega)))).wide
      rwa [abs_of_nonneg (div_nonneg (mul_nonneg (hm i (by omega)) (hm (i + 1) (by omega))) (len_nonneg' _))] at w) le_rfl (Wide.zero h0 h1 8)
  have w2 := Wide.loop_sub hA h0 h1 8 0 (P.num - 2) (t := t2) (M := t2)
    (t' := fun i => A.div (A.mul (P.mass (C.index i)) (P.mass (C.index (i + 2)))) (norm A (addV A (C.chainPos i) (C.chainPos (i + 1))))) (fun i _ hi => by
      have r : Rel u 6 (len (C.chainPos i + C.chainPos (i + 1))) (norm A (addV A (C.chainPos i) (C.chainPos (i + 1)))) :=
        rel_norm hA h0 h1 (k := 1) (Rel.round h0 h1 (hA.add _ _)) (Rel.round h0 h1 (hA.add _ _)) (Rel.round h0 h1 (hA.add _ _))
      have w := (rel_term hA h0 h1 (P.mass (C.index i)) (P.mass (C.index (i + 2))) r (len_ne (hd2 i (by omega)))).wide
      rwa [abs_of_nonneg (div_nonneg (mul_nonneg (hm i (by omega)) (hm (i + 2) (by omega))) (len_nonneg' _))] at w) (by omega) w1
  have w3 := Wide.sum (u := u) (K := 8) (fun i => P.num - (i + 3)) (t := fun i => ∑ j ∈ Ico (i + 3) P.num, -t3 i j)
    (M := fun i => ∑ j ∈ Ico (i + 3) P.num, t3 i j)
    (F := fun i e => forLoop (i + 3) P.num (fun j e =>
      A.sub e (A.div (A.mul (P.mass (C.index i)) (P.mass (C.index j))) (norm A (subV A (P.pos (C.index j)) (P.pos (C.index i)))))) e) 0 P.num
    (fun i _ hi c a m b hc hw => Wide.loop_sub hA h0 h1 8 (i + 3) P.num (t := t3 i) (M := t3 i) (fun j hj hj' => by
      have w := (rel_term hA h0 h1 (P.mass (C.index i)) (P.mass (C.index j)) (rel_dist hA h0 h1 (P.pos (C.index j)) (P.pos (C.index i)))
        (len_ne (sub_ne_zero.2 (hd3 i j hj hj')))).wide
      rwa [abs_of_nonneg (div_nonneg (mul_nonneg (hm i hi) (hm j hj')) (len_nonneg' _))] at w) hc hw) (by omega) w2
  have cnt : ∑ i ∈ Ico 0 P.num, (P.num - (i + 3)) ≤ P.num * (P.num - 1) / 2 := by
    rw [← sum_gauss]
    exact sum_le_sum fun i _ => by omega
  set T := ∑ i ∈ Ico 0 (P.num - 1), t1 i + ∑ i ∈ Ico 0 (P.num - 2), t2 i + ∑ i ∈ Ico 0 P.num, ∑ j ∈ Ico (i + 3) P.num, t3 i j with hT
  have e1 : 0 + ∑ i ∈ Ico 0 (P.num - 1), -t1 i + ∑ i ∈ Ico 0 (P.num - 2), -t2 i + ∑ i ∈ Ico 0 P.num, ∑ j ∈ Ico (i + 3) P.num, -t3 i j = -T := by
    rw [hT]
    simp only [sum_neg_distrib]
    ring
  rw [e1, zero_add, ← hT] at w3
  have e := ((neg_rel w3).mul hA h0 h1 (Rel.refl h0 h1 0 G)).mono h0 h1 (show _ ≤ P.num * (P.num - 1) / 2 + 2 * P.num + 9 by omega)
  refine ⟨-T * G, ?_, e.bound h0 h1 hu⟩
  unfold potentialChain
  rw [if_neg (by omega)]
  have s1 : ∀ e0 : ℝ, forLoop 0 (P.num - 1) (fun i e => e - P.mass (C.index i) * P.mass (C.index (i + 1)) / Force.norm (C.chainPos i)) e0 =
      e0 + ∑ i ∈ Ico 0 (P.num - 1), -t1 i := fun e0 => forLoop_add_scalar _ _ _ (fun i => -t1 i) (fun i _ _ a => sub_eq_add_neg _ _) e0
  have s2 : ∀ e0 : ℝ, forLoop 0 (P.num - 2) (fun i e => e - P.mass (C.index i) * P.mass (C.index (i + 2)) / Force.norm (C.chainPos i + C.chainPos (i + 1))) e0 =
      e0 + ∑ i ∈ Ico 0 (P.num - 2), -t2 i := fun e0 => forLoop_add_scalar _ _ _ (fun i => -t2 i) (fun i _ _ a => sub_eq_add_neg _ _) e0
  have s3 : ∀ e0 : ℝ, forLoop 0 P.num (fun i e => forLoop (i + 3) P.num (fun j e =>
      e - P.mass (C.index i) * P.mass (C.index j) / Force.norm (P.pos (C.index j) - P.pos (C.index i))) e) e0 =
      e0 + ∑ i ∈ Ico 0 P.num, ∑ j ∈ Ico (i + 3) P.num, -t3 i j := fun e0 =>
    forLoop_add_scalar _ _ _ (fun i => ∑ j ∈ Ico (i + 3) P.num, -t3 i j) (fun i _ _ a => forLoop_add_scalar _ _ _ (fun j => -t3 i j) (fun j _ _ a => sub_eq_add_neg _ _) a) e0
  show Res.ok (forLoop 0 P.num _ (forLoop 0 (P.num - 2) _ (forLoop 0 (P.num - 1) _ 0)) * G) = _
  rw [s1, s2, s3, e1]

/-- one component of a sum of vectors with masses -/
theorem weighted_comp (hA : Accurate A u) (h0 : 0 ≤ u) (h1 : u < 1) (n : Nat) (m : Arr ℝ) {w : Nat → V3 ℝ} (c : V3 ℝ → ℝ) (cadd : ∀ a b, c (addV A a b) = A.add (c a) (c b))
    (cmul : ∀ a t, c (mulV A a t) = A.mul (c a) t) (c0 : c 0 = 0) {K : Nat} {t M : Nat → ℝ} (h : ∀ i, i < n → Wide u K (t i) (M i) (c (w i))) :
    Wide u (K + 1 + n) (∑ i ∈ range n, t i * m i) (∑ i ∈ range n, M i * |m i|) (c (forLoop 0 n (fun i s => addV A s (mulV A (w i) (m i))) 0)) := by
  rw [forLoop_map c _ (fun i s => A.add s (A.mul (c (w i)) (m i))) (fun i s => by rw [cadd, cmul]), c0]
  have e := Wide.loop hA h0 h1 (K + 1) 0 n (fun i _ hi => (h i hi).mul hA h0 h1 (Rel.refl h0 h1 0 (m i))) le_rfl (Wide.zero h0 h1 (K + 1))
  rwa [zero_add, zero_add, Nat.Ico_zero_eq_range] at e

/-- **C115, angular momentum.** Every component is computed with an error of at most about `(n + 3) u` times the sum of the sizes of its terms. -/
theorem C115_angular_momentum (hA : Accurate A u) (h0 : 0 ≤ u) (P : Particles) (hu : ((P.num + 3 : ℕ) : ℝ) * u < 1) :
    let L := ∑ i ∈ range P.num, P.mass i • cross (P.pos i) (P.vel i)
    |(angularMomentumR A P).x - L.x| ≤ gam u (P.num + 3) * ∑ i ∈ range P.num, |P.mass i| * (|(P.pos i).y * (P.vel i).z| + |(P.pos i).z * (P.vel i).y|) ∧
    |(angularMomentumR A P).y - L.y| ≤ gam u (P.num + 3) * ∑ i ∈ range P.num, |P.mass i| * (|(P.pos i).z * (P.vel i).x| + |(P.pos i).x * (P.vel i).z|) ∧
    |(angularMomentumR A P).z - L.z| ≤ gam u (P.num + 3) * ∑ i ∈ range P.num, |P.mass i| * (|(P.pos i).x * (P.vel i).y| + |(P.pos i).y * (P.vel i).x|) := by
  intro L
  have h1 : u < 1 := by
    refine lt_of_le_of_lt ?_ hu
    push_cast
    nlinarith [show (0 : ℝ) ≤ P.num from Nat.cast_nonneg _]
  have prod : ∀ a b : ℝ, Wide u 1 (a * b) |a * b| (A.mul a b) := fun a b => ((Rel.refl h0 h1 0 a).mul hA h0 h1 (Rel.refl h0 h1 0 b)).wide
  have sx : L.x = ∑ i ∈ range P.num, ((P.pos i).y * (P.vel i).z - (P.pos i).z * (P.vel i).y) * P.mass i := by
    simp only [L]; rw [(sum_xyz _ _).1]; rfl
  have sy : L.y = ∑ i ∈ range P.num, ((P.pos i).z * (P.vel i).x - (P.pos i).x * (P.vel i).z) * P.mass i := by
    simp only [L]; rw [(sum_xyz _ _).2.1]; rfl
  have sz : L.z = ∑ i ∈ range P.num, ((P.pos i).x * (P.vel i).y - (P.pos i).y * (P.vel i).x) * P.mass i := by
    simp only [L]; rw [(sum_xyz _ _).2.2]; rfl
  rw [sx, sy, sz]
  have fin : ∀ {a : ℝ} {b : ℝ} {M : Nat → ℝ}, Wide u (2 + 1 + P.num) a (∑ i ∈ range P.num, M i * |P.mass i|) b → |b - a| ≤ gam u (P.num + 3) * ∑ i ∈ range P.num, |P.mass i| * M i := by
    intro a b M h
    have := (h.mono h0 h1 (show _ ≤ P.num + 3 by omega)).bound h0 h1 hu
    simpa only [mul_comm (|_|) (_ : ℝ)] using this
  exact ⟨fin (weighted_comp hA h0 h1 P.num P.mass V3.x (fun _ _ => rfl) (fun _ _ => rfl) rfl fun i _ => (prod _ _).sub hA h0 h1 (prod _ _)),
    fin (weighted_comp hA h0 h1 P.num P.mass V3.y (fun _ _ => rfl) (fun _ _ => rfl) rfl fun i _ => (prod _ _).sub hA h0 h1 (prod _ _)),
    fin (weighted_comp hA h0 h1 P.num P.mass V3.z (fun _ _ => rfl) (fun _ _ => rfl) rfl fun i _ => (prod _ _).sub hA h0 h1 (prod _ _))⟩

/-- **C115, centre of mass.** For masses that are not negative and do not vanish altogether, every coordinate is computed with an error of at most about
`(2 n + 2) u` times the mean size of that coordinate. -/
theorem C115_com (hA : Accurate A u) (h0 : 0 ≤ u) (n : Nat) (m : Arr ℝ) (x : Arr (V3 ℝ)) (hu : ((2 * n + 2 : ℕ) : ℝ) * u < 1) (hm : ∀ i, i < n → 0 ≤ m i)
    (hM : ∑ i ∈ range n, m i ≠ 0) :
    |(comR A n m x).x - (∑ i ∈ range n, m i * (x i).x) / ∑ i ∈ range n, m i| ≤ gam u (2 * n + 2) * ((∑ i ∈ range n, m i * |(x i).x|) / ∑ i ∈ range n, m i) ∧
    |(comR A n m x).y - (∑ i ∈ range n, m i * (x i).y) / ∑ i ∈ range n, m i| ≤ gam u (2 * n + 2) * ((∑ i ∈ range n, m i * |(x i).y|) / ∑ i ∈ range n, m i) ∧
    |(comR A n m x).z - (∑ i ∈ range n, m i * (x i).z) / ∑ i ∈ range n, m i| ≤ gam u (2 * n + 2) * ((∑ i ∈ range n, m i * |(x i).z|) / ∑ i ∈ range n, m i) := by
  have h1 : u < 1 := by
    refine lt_of_le_of_lt ?_ hu
    push_cast
    nlinarith [show (0 : ℝ) ≤ n from Nat.cast_nonneg _]
  have hM0 : 0 ≤ ∑ i ∈ range n, m i := sum_nonneg fun i hi => hm i (mem_range.1 hi)
  have mm : Rel u n (∑ i ∈ range n, m i) (forLoop 0 n (fun i s => A.add s (m i)) 0) := by
    have e := Wide.loop hA h0 h1 0 0 n (t := m) (M := m) (t' := m) (fun i _ hi => by
      have w := (Rel.refl h0 h1 0 (m i)).wide
      rwa [abs_of_nonneg (hm i hi)] at w) le_rfl (Wide.zero h0 h1 0)
    rw [zero_add, zero_add, Nat.sub_zero, Nat.Ico_zero_eq_range] at e
    exact e.toRel
  have fin : ∀ c : V3 ℝ → ℝ, (∀ a b, c (addV A a b) = A.add (c a) (c b)) → (∀ a t, c (mulV A a t) = A.mul (c a) t) → c 0 = 0 →
      |A.div (c (forLoop 0 n (fun i s => addV A s (mulV A (x i) (m i))) 0)) (forLoop 0 n (fun i s => A.add s (m i)) 0) - (∑ i ∈ range n, m i * c (x i)) / ∑ i ∈ range n, m i| ≤
        gam u (2 * n + 2) * ((∑ i ∈ range n, m i * |c (x i)|) / ∑ i ∈ range n, m i) := by
    intro c cadd cmul c0
    have w := weighted_comp hA h0 h1 n m c cadd cmul c0 (w := x) (K := 0) (fun i _ => (Rel.refl h0 h1 0 (c (x i))).wide)
    have b := ((w.div hA h0 h1 mm hM).mono h0 h1 (show _ ≤ 2 * n + 2 by omega)).bound h0 h1 hu
    rw [abs_of_nonneg hM0] at b
    have s1 : ∑ i ∈ range n, c (x i) * m i = ∑ i ∈ range n, m i * c (x i) := sum_congr rfl fun i _ => mul_comm _ _
    have s2 : ∑ i ∈ range n, |c (x i)| * |m i| = ∑ i ∈ range n, m i * |c (x i)| := sum_congr rfl fun i hi => by
      rw [abs_of_nonneg (hm i (mem_range.1 hi)), mul_comm]
    rwa [s1, s2] at b
  exact ⟨fin V3.x (fun _ _ => rfl) (fun _ _ => rfl) rfl, fin V3.y (fun _ _ => rfl) (fun _ _ => rfl) rfl, fin V3.z (fun _ _ => rfl) (fun _ _ => rfl) rfl⟩

/-- Without rounding these are the computations of the other properties (C08, C09, C11, C17, C52). -/
theorem C115_exact (G : ℝ) (P : Particles) (C : ChainView) (hn : 2 ≤ P.num) : kineticR .exact P = kinetic P ∧ potentialR .exact G P = potentialDirect G P ∧
    totalEnergyR .exact G P = totalEnergy G P ∧ potentialChain G P C = .ok (potentialChainR .exact G P C) ∧ angularMomentumR .exact P = angularMomentum P ∧
    comR .exact P.num P.mass P.pos = calcCom P.num P.mass P.pos ∧ acc .exact P = gravity.acc P := by
  have hk : kineticR .exact P = kinetic P := by
    show ((1 / 2 : ℚ) : ℝ) * contract P.num P.mass P.vel P.vel = kinetic P
    rw [kinetic]
    push_cast
    rfl
  have hp : potentialR .exact G P = potentialDirect G P := rfl
  refine ⟨hk, hp, ?_, ?_, rfl, ?_, acc_exact P⟩
  · show potentialR .exact G P + kineticR .exact P = _
    rw [hk, hp]; rfl
  · unfold potentialChain
    rw [if_neg (by omega)]
    rfl
  · rfl

/-- The hypotheses are met: two particles of the masses `1` and `1e-9`, `1e-6` apart, `1e6` from the origin, `double` numbers. -/
example : let P : Particles := ⟨2, fun k => if k = 0 then ⟨1000000, 0, 0⟩ else ⟨1000000.000001, 0, 0⟩, fun k => ⟨0, k, 0⟩, fun k => if k = 0 then 1 else 1e-9⟩
    Accurate (ieee (roundTo 53)) (1 / 2 ^ 53) ∧ ((P.num * (P.num - 1) / 2 + P.num + 10 : ℕ) : ℝ) * (1 / 2 ^ 53) < 1 ∧ (∀ i, i < P.num → 0 ≤ P.mass i) ∧
      (∀ i j, i < j → j < P.num → P.pos i ≠ P.pos j) ∧ ∑ i ∈ range P.num, P.mass i ≠ 0 := by
  intro P
  refine ⟨C113_nearest (by norm_num) (roundTo_nearest (by norm_num)), by norm_num [P], fun i _ => ?_, fun i j hij hj h => ?_, ?_⟩
  · simp only [P]; by_cases h : i = 0
    · rw [if_pos h]; norm_num
    · rw [if_neg h]; norm_num
  · have hi : i = 0 := by simp only [P] at hj; omega
    have hj' : j = 1 := by simp only [P] at hj; omega
    subst hi hj'
    have := congrArg V3.x h
    norm_num [P] at this
  · norm_num [P, sum_range_succ]

end SpaceHub.Rounded
