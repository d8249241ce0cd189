import Verif.Proof.Pairs

set_option autoImplicit false

namespace SpaceHub.Force
open SpaceHub V3 Spec Finset

/-- unfold a vector identity into its components -/
macro "v3" : tactic => `(tactic| (ext <;> simp only [V3.add_x, V3.add_y, V3.add_z, V3.sub_x, V3.sub_y, V3.sub_z,
  V3.neg_x, V3.neg_y, V3.neg_z, V3.zero_x, V3.zero_y, V3.zero_z, V3.smul_x, V3.smul_y, V3.smul_z, V3.div_x, V3.div_y,
  V3.div_z]))

theorem sqrt_norm2 (a : V3 ℝ) : Real.sqrt (norm2 a) = len a := rfl
theorem norm2_eq_len (a : V3 ℝ) : norm2 a = len a ^ 2 := by
  rw [len, Real.sq_sqrt]; · rfl
  · unfold dot; nlinarith [mul_self_nonneg a.x, mul_self_nonneg a.y, mul_self_nonneg a.z]
theorem len_sub_comm (a b : V3 ℝ) : len (a - b) = len (b - a) := norm_sub_comm a b

theorem newton_symmetric (P : Particles) :
    Symmetric (newtonForce P.mass) P (fun i j => newton (P.mass j) (P.pos i) (P.pos j)) := by
  intro i j _ _ hij acc k
  simp only [newtonForce]
  rw [addAt_subAt _ _ _ hij]
  congr 2
  · refine if_congr Iff.rfl ?_ rfl
    unfold newton
    rw [len_eq_norm]
    ext <;> simp <;> ring
  · refine if_congr Iff.rfl ?_ rfl
    unfold newton
    rw [len_eq_norm, norm_sub_comm (P.pos i)]
    ext <;> simp <;> ring

/-- two-body data of the accelerated particle `i` and the other one `j` -/
def two (P : Particles) (i j : Nat) : TwoBody := ⟨P.mass i, P.mass j, P.pos i, P.pos j, P.vel i, P.vel j⟩

theorem n_eq (P : Particles) (i j : Nat) :
    (-(P.pos j - P.pos i)) / Real.sqrt (norm2 (P.pos j - P.pos i)) = (two P i j).n := by
  simp only [TwoBody.n, TwoBody.r, two, sqrt_norm2, len_sub_comm (P.pos j)]
  congr 1; abel

theorem n_swap (P : Particles) (i j : Nat) : (two P j i).n = -(two P i j).n := by
  simp only [TwoBody.n, TwoBody.r, two, len_sub_comm (P.pos j)]
  ext <;> simp <;> ring

theorem r_swap (P : Particles) (i j : Nat) : (two P j i).r = (two P i j).r := by
  simp only [TwoBody.r, two, len_sub_comm (P.pos j)]

theorem r_eq (P : Particles) (i j : Nat) : Real.sqrt (norm2 (P.pos j - P.pos i)) = (two P i j).r := by
  simp only [TwoBody.r, two, sqrt_norm2, len_sub_comm (P.pos j)]

theorem r2_eq (P : Particles) (i j : Nat) : norm2 (P.pos j - P.pos i) = (two P i j).r ^ 2 := by
  rw [norm2_eq_len]; simp only [TwoBody.r, two, len_sub_comm (P.pos j)]

theorem nv_swap1 (P : Particles) (i j : Nat) : (two P j i).nv1 = -(two P i j).nv2 := by
  simp only [TwoBody.nv1, TwoBody.nv2, n_swap P i j]; simp [two, dot]; ring
theorem nv_swap2 (P : Particles) (i j : Nat) : (two P j i).nv2 = -(two P i j).nv1 := by
  simp only [TwoBody.nv1, TwoBody.nv2, n_swap P i j]; simp [two, dot]; ring
theorem vv_swap (P : Particles) (i j : Nat) : (two P j i).vv = (two P i j).vv := by
  simp [TwoBody.vv, two, dot]; ring

theorem pn1_symmetric (G c : ℝ) (P : Particles) :
    Symmetric (pn1Force G c P.vel P.mass) P (fun i j => (two P i j).pn1 G c) := by
  intro i j _ _ hij acc k
  simp only [pn1Force]
  rw [addAt_subAt _ _ _ hij]
  simp only [n_eq]
  have h1 : dot (two P i j).n (P.vel i) = (two P i j).nv1 := rfl
  have h2 : dot (two P i j).n (P.vel j) = (two P i j).nv2 := rfl
  have h3 : dot (P.vel i) (P.vel j) = (two P i j).vv := rfl
  rw [h1, h2, h3, r_eq, r2_eq]
  have e1 : (two P i j).v1s = norm2 (P.vel i) := rfl
  have e2 : (two P i j).v2s = norm2 (P.vel j) := rfl
  have e3 : (two P j i).v1s = norm2 (P.vel j) := rfl
  have e4 : (two P j i).v2s = norm2 (P.vel i) := rfl
  have m1 : (two P i j).m1 = P.mass i := rfl
  have m2 : (two P i j).m2 = P.mass j := rfl
  have m3 : (two P j i).m1 = P.mass j := rfl
  have m4 : (two P j i).m2 = P.mass i := rfl
  have w1 : (two P i j).v1 = P.vel i := rfl
  have w2 : (two P i j).v2 = P.vel j := rfl
  have w3 : (two P j i).v1 = P.vel j := rfl
  have w4 : (two P j i).v2 = P.vel i := rfl
  congr 2
  · refine if_congr Iff.rfl ?_ rfl
    unfold TwoBody.pn1
    rw [e1, e2, m1, m2, w1, w2]
    generalize (two P i j).r = r, (two P i j).nv1 = nv1, (two P i j).nv2 = nv2, (two P i j).vv = vv, (two P i j).n = n
    ext <;> simp <;> ring
  · refine if_congr Iff.rfl ?_ rfl
    unfold TwoBody.pn1
    rw [e3, e4, m3, m4, w3, w4, r_swap P i j, nv_swap1 P i j, nv_swap2 P i j, vv_swap P i j, n_swap P i j]
    generalize (two P i j).r = r, (two P i j).nv1 = nv1, (two P i j).nv2 = nv2, (two P i j).vv = vv, (two P i j).n = n
    ext <;> simp <;> ring

theorem pn2p5_symmetric (G c : ℝ) (P : Particles) :
    Symmetric (pn2p5Force G c P.mass) P (fun i j => (two P i j).pn2p5 G c) := by
  intro i j _ _ hij acc k
  simp only [pn2p5Force]
  rw [addAt_subAt _ _ _ hij]
  simp only [n_eq]
  rw [r_eq, r2_eq]
  have m1 : (two P i j).m1 = P.mass i := rfl
  have m2 : (two P i j).m2 = P.mass j := rfl
  have m3 : (two P j i).m1 = P.mass j := rfl
  have m4 : (two P j i).m2 = P.mass i := rfl
  have w1 : (two P i j).v1 = P.vel i := rfl
  have w2 : (two P i j).v2 = P.vel j := rfl
  have w3 : (two P j i).v1 = P.vel j := rfl
  have w4 : (two P j i).v2 = P.vel i := rfl
  congr 2
  · refine if_congr Iff.rfl ?_ rfl
    unfold TwoBody.pn2p5
    rw [m1, m2, w1, w2]
    have hd : dot (two P i j).n (P.vel i - P.vel j) = -dot (two P i j).n (P.vel j - P.vel i) := by
      simp [dot]; ring
    have hd2 : dot (P.vel i - P.vel j) (P.vel i - P.vel j) = norm2 (P.vel j - P.vel i) := by
      simp [dot, norm2]; ring
    rw [hd, hd2]
    generalize (two P i j).r = r, dot (two P i j).n (P.vel j - P.vel i) = nv, norm2 (P.vel j - P.vel i) = w, (two P i j).n = n
    ext <;> simp <;> ring
  · refine if_congr Iff.rfl ?_ rfl
    unfold TwoBody.pn2p5
    rw [m3, m4, w3, w4, r_swap P i j, n_swap P i j]
    have hd : dot (-(two P i j).n) (P.vel j - P.vel i) = -dot (two P i j).n (P.vel j - P.vel i) := by
      simp [dot]; ring
    have hd2 : dot (P.vel j - P.vel i) (P.vel j - P.vel i) = norm2 (P.vel j - P.vel i) := rfl
    rw [hd, hd2]
    generalize (two P i j).r = r, dot (two P i j).n (P.vel j - P.vel i) = nv, norm2 (P.vel j - P.vel i) = w, (two P i j).n = n
    ext <;> simp <;> ring

/-- What the PN2 lambda does to the pair: the first-listed body gets the literature value, the second-listed
one gets the literature value plus `5 G m_i v_i^2 (n.v_j - n.v_i) / (r^2 c^4)` times the relative velocity. -/
theorem pn2_apply (G c : ℝ) (P : Particles) (i j : Nat) (hij : i ≠ j) (acc : Arr (V3 ℝ)) (k : Nat) :
    pn2Force G c P.vel P.mass (P.pos j - P.pos i) (P.vel j - P.vel i) i j acc k =
      acc k + ((if k = i then (two P i j).pn2 G c else 0) +
        (if k = j then (two P j i).pn2 G c +
          (G * P.mass i / ((two P i j).r ^ 2 * c ^ 4) * (5 * norm2 (P.vel i) * ((two P i j).nv2 - (two P i j).nv1)))
            • (P.vel j - P.vel i) else 0)) := by
  simp only [pn2Force]
  rw [addAt_subAt _ _ _ hij]
  simp only [n_eq]
  have h1 : dot (two P i j).n (P.vel i) = (two P i j).nv1 := rfl
  have h2 : dot (two P i j).n (P.vel j) = (two P i j).nv2 := rfl
  have h3 : dot (P.vel i) (P.vel j) = (two P i j).vv := rfl
  rw [h1, h2, h3, r_eq, r2_eq]
  have e1 : (two P i j).v1s = norm2 (P.vel i) := rfl
  have e2 : (two P i j).v2s = norm2 (P.vel j) := rfl
  have e3 : (two P j i).v1s = norm2 (P.vel j) := rfl
  have e4 : (two P j i).v2s = norm2 (P.vel i) := rfl
  have m1 : (two P i j).m1 = P.mass i := rfl
  have m2 : (two P i j).m2 = P.mass j := rfl
  have m3 : (two P j i).m1 = P.mass j := rfl
  have m4 : (two P j i).m2 = P.mass i := rfl
  have w1 : (two P i j).v1 = P.vel i := rfl
  have w2 : (two P i j).v2 = P.vel j := rfl
  have w3 : (two P j i).v1 = P.vel j := rfl
  have w4 : (two P j i).v2 = P.vel i := rfl
  congr 2
  · refine if_congr Iff.rfl ?_ rfl
    unfold TwoBody.pn2
    rw [e1, e2, m1, m2, w1, w2]
    generalize (two P i j).r = r, (two P i j).nv1 = nv1, (two P i j).nv2 = nv2, (two P i j).vv = vv, (two P i j).n = n
    ext <;> simp <;> ring
  · refine if_congr Iff.rfl ?_ rfl
    unfold TwoBody.pn2
    rw [e3, e4, m3, m4, w3, w4, r_swap P i j, nv_swap1 P i j, nv_swap2 P i j, vv_swap P i j, n_swap P i j]
    generalize (two P i j).r = r, (two P i j).nv1 = nv1, (two P i j).nv2 = nv2, (two P i j).vv = vv, (two P i j).n = n
    ext <;> simp <;> ring

/-- the tidal acceleration of particle `i` on account of `j` -/
noncomputable def tidalF (G : ℝ) (T : TideData) (P : Particles) (i j : Nat) : V3 ℝ :=
  tidal G (T.k i) (T.k j) (T.tau i) (T.tau j) (T.rad i) (T.rad j) (two P i j)

theorem tidal_symmetric (G : ℝ) (T : TideData) (P : Particles) :
    Symmetric (tidalForce G P.mass T) P (tidalF G T P) := by
  intro i j _ _ hij acc k
  have hn : norm (P.pos j - P.pos i) = (two P i j).r := by rw [← r_eq]; rfl
  have hn' : (two P j i).r = (two P i j).r := r_swap P i j
  simp only [tidalF, tidal, hn']
  have m1 : (two P i j).m1 = P.mass i := rfl
  have m2 : (two P i j).m2 = P.mass j := rfl
  have m3 : (two P j i).m1 = P.mass j := rfl
  have m4 : (two P j i).m2 = P.mass i := rfl
  have w1 : (two P i j).v1 = P.vel i := rfl
  have w2 : (two P i j).v2 = P.vel j := rfl
  have w3 : (two P j i).v1 = P.vel j := rfl
  have w4 : (two P j i).v2 = P.vel i := rfl
  have x1 : (two P i j).x1 = P.pos i := rfl
  have x2 : (two P i j).x2 = P.pos j := rfl
  have x3 : (two P j i).x1 = P.pos j := rfl
  have x4 : (two P j i).x2 = P.pos i := rfl
  rw [m1, m2, m3, m4, w1, w2, w3, w4, x1, x2, x3, x4]
  have hd : dot (P.vel i - P.vel j) (P.pos i - P.pos j) = dot (P.vel j - P.vel i) (P.pos j - P.pos i) := by
    simp [dot]; ring
  rw [hd]
  have hx : P.pos i - P.pos j = -(P.pos j - P.pos i) := by abel
  rw [hx]
  simp only [tidalForce, hn]
  generalize (two P i j).r = r, dot (P.vel j - P.vel i) (P.pos j - P.pos i) = d, P.pos j - P.pos i = x
  by_cases ki : T.k i = 0 <;> by_cases kj : T.k j = 0
  · simp [ki, kj]
  all_goals
    simp only [ki, kj, ne_eq, not_true_eq_false, not_false_eq_true, if_true, if_false, or_true, or_false]
    simp only [addAt_subAt _ _ _ hij]
    by_cases h1 : k = i
    · have h2 : k ≠ j := by rw [h1]; exact hij
      simp only [h1, hij, if_true, if_false]
      v3 <;> ring
    · by_cases h2 : k = j
      · have h3 : ¬ j = i := fun e => hij e.symm
        simp only [h2, h3, if_true, if_false]
        v3 <;> ring
      · simp [h1, h2]

end SpaceHub.Force
