import Verif.Proof.ConvergePlain

/-
Drift/kick integrators of a time-transformed system: the time step of a position update depends on the velocities, that of a velocity update on the
positions.
-/

set_option autoImplicit false

namespace SpaceHub.Converge
open Set Real SpaceHub.Integrator SpaceHub.Spec

variable {E : Type*} [NormedAddCommGroup E] [NormedSpace ℝ E]

/-- time, positions, velocities -/
structure TS (E : Type*) where
  t : ℝ
  x : E
  v : E

/-- one stage -/
def tstage (a : E → E) (f g : E → ℝ) (h : ℝ) (s : TS E) : Stage → TS E
  | .drift c => ⟨s.t + h * c * f s.v, s.x + (h * c * f s.v) • s.v, s.v⟩
  | .kick c => ⟨s.t, s.x, s.v + (h * c * g s.x) • a s.x⟩

/-- one step -/
def tstep (a : E → E) (f g : E → ℝ) (stages : List Stage) (h : ℝ) (s : TS E) : TS E := stages.foldl (tstage a f g h) s

/-- some steps -/
def titer (a : E → E) (f g : E → ℝ) (stages : List Stage) (hs : List ℝ) (s : TS E) : TS E := hs.foldl (fun s h => tstep a f g stages h s) s

/-- The two time transformations near a motion: bounded, Lipschitz, and equal on the motion. -/
structure Clocks (f g : E → ℝ) (q w : ℝ → E) (T r F Λ f0 : ℝ) : Prop where
  hF : 0 ≤ F
  hΛ : 0 ≤ Λ
  hf0 : 0 < f0
  fb : ∀ t ∈ Icc 0 T, ∀ v, ‖v - w t‖ ≤ r → |f v| ≤ F
  gb : ∀ t ∈ Icc 0 T, ∀ x, ‖x - q t‖ ≤ r → |g x| ≤ F
  fl : ∀ t ∈ Icc 0 T, ∀ v, ‖v - w t‖ ≤ r → |f v - f (w t)| ≤ Λ * ‖v - w t‖
  gl : ∀ t ∈ Icc 0 T, ∀ x, ‖x - q t‖ ≤ r → |g x - g (q t)| ≤ Λ * ‖x - q t‖
  pos : ∀ t ∈ Icc 0 T, f0 ≤ f (w t)
  eq : ∀ t ∈ Icc 0 T, f (w t) = g (q t)

theorem sumDrift_snoc (l : List Stage) (s : Stage) : sumDrift (l ++ [s]) = sumDrift l + (match s with | .drift c => c | .kick _ => 0) := by
  induction l with
  | nil => cases s <;> simp [sumDrift]
  | cons u l ih => cases u <;> simp [sumDrift, ih, add_assoc]

theorem sumKick_snoc (l : List Stage) (s : Stage) : sumKick (l ++ [s]) = sumKick l + (match s with | .drift _ => 0 | .kick c => c) := by
  induction l with
  | nil => cases s <;> simp [sumKick]
  | cons u l ih => cases u <;> simp [sumKick, ih, add_assoc]

variable {a : E → E} {f g : E → ℝ} {q w : ℝ → E} {T r A L V F Λ f0 : ℝ}

/-- how far a stage moves -/
noncomputable def speed (c r A V F : ℝ) : ℝ := c * F * (V + r + A)

theorem inner (H : Tube a q w T r A L V) (Q : Clocks f g q w T r F Λ f0) {t h c e ρ : ℝ} (ht : t ∈ Icc 0 T) (hh : 0 ≤ h) (hc : 0 ≤ c) (hρ : ρ ≤ r)
    (s : TS E) (hx : ‖s.x - q t‖ ≤ e) (hv : ‖s.v - w t‖ ≤ e) (l : List Stage) :
    (∀ u ∈ l, |((coef u : ℚ) : ℝ)| ≤ c) → e + l.length * (h * speed c r A V F) ≤ ρ →
      ‖(tstep a f g l h s).x - q t‖ ≤ e + l.length * (h * speed c r A V F) ∧
      ‖(tstep a f g l h s).v - w t‖ ≤ e + l.length * (h * speed c r A V F) ∧
      |(tstep a f g l h s).t - s.t| ≤ l.length * (h * (c * F)) ∧
      |(tstep a f g l h s).t - s.t - h * (sumDrift l : ℝ) * f (w t)| ≤ l.length * (h * (c * Λ * ρ)) ∧
      ‖(tstep a f g l h s).x - s.x - ((tstep a f g l h s).t - s.t) • w t‖ ≤ l.length * (h * (c * F * ρ)) ∧
      ‖(tstep a f g l h s).v - s.v - (h * (sumKick l : ℝ) * g (q t)) • a (q t)‖ ≤ l.length * (h * (c * (F * L + Λ * A) * ρ)) := by
  have hr := H.hr.le
  have hA := H.hA
  have hL := H.hL
  have hV := H.hV
  have hF := Q.hF
  have hΛ := Q.hΛ
  have he : 0 ≤ e := (norm_nonneg _).trans hx
  have hsp : 0 ≤ speed c r A V F := by unfold speed; positivity
  induction l using List.reverseRecOn with
  | nil =>
    intro _ _
    simp [tstep, sumDrift, sumKick, hx, hv]
  | append_singleton l u ih =>
    intro hl hle
    have hlen : (((l ++ [u]).length : ℕ) : ℝ) = l.length + 1 := by simp
    rw [hlen, add_mul, one_mul] at hle
    have hm : 0 ≤ h * speed c r A V F := mul_nonneg hh hsp
    obtain ⟨i1, i2, i3, i4, i5, i6⟩ := ih (fun u hu => hl u (List.mem_append_left _ hu)) (by linarith)
    have hu : |((coef u : ℚ) : ℝ)| ≤ c := hl u (by simp)
    have estep : tstep a f g (l ++ [u]) h s = tstage a f g h (tstep a f g l h s) u := by simp [tstep]
    rw [hlen]
    simp only [add_mul, one_mul]
    generalize tstep a f g l h s = z at *
    have hxr : ‖z.x - q t‖ ≤ ρ := by linarith
    have hvr : ‖z.v - w t‖ ≤ ρ := by linarith
    have hρ0 : 0 ≤ ρ := (norm_nonneg _).trans hxr
    rw [estep]
    cases u with
    | drift k =>
      replace hu : |(k : ℝ)| ≤ c := hu
      have b1 := Q.fb t ht z.v (hvr.trans hρ)
      have b2 := Q.fl t ht z.v (hvr.trans hρ)
      set d := h * k * f z.v with hd
      have hd1 : |d| ≤ h * (c * F) := by
        rw [hd, abs_mul, abs_mul, abs_of_nonneg hh, mul_assoc]; gcongr
      have hd2 : |d - h * k * f (w t)| ≤ h * (c * Λ * ρ) := by
        rw [hd, ← mul_sub, abs_mul, abs_mul, abs_of_nonneg hh, mul_assoc, mul_assoc c]
        gcongr
        exact b2.trans (by gcongr)
      have hvn : ‖z.v‖ ≤ V + r := by
        have := norm_le_norm_add_norm_sub (w t) z.v
        have := H.vel t ht
        linarith [norm_sub_rev (w t) z.v]
      have hmove : ‖d • z.v‖ ≤ h * speed c r A V F := by
        rw [norm_smul, Real.norm_eq_abs]
        calc |d| * ‖z.v‖ ≤ h * (c * F) * (V + r) := by gcongr
          _ ≤ h * (c * F) * (V + r + A) := mul_le_mul_of_nonneg_left (by linarith) (by positivity)
          _ = h * speed c r A V F := by unfold speed; ring
      simp only [tstage, sumDrift_snoc, sumKick_snoc, add_zero, Rat.cast_add]
      refine ⟨?_, ?_, ?_, ?_, ?_, ?_⟩
      · have := norm_add_le (z.x - q t) (d • z.v)
        rw [show z.x + d • z.v - q t = z.x - q t + d • z.v by abel]
        linarith
      · linarith
      · have := abs_add_le (z.t - s.t) d
        rw [show z.t + d - s.t = z.t - s.t + d by ring]
        linarith
      · have := abs_add_le (z.t - s.t - h * (sumDrift l : ℝ) * f (w t)) (d - h * k * f (w t))
        rw [show z.t + d - s.t - h * ((sumDrift l : ℝ) + k) * f (w t) = (z.t - s.t - h * (sumDrift l : ℝ) * f (w t)) + (d - h * k * f (w t)) by ring]
        linarith
      · have e1 : z.x + d • z.v - s.x - (z.t + d - s.t) • w t = (z.x - s.x - (z.t - s.t) • w t) + d • (z.v - w t) := by
          rw [smul_sub, show z.t + d - s.t = z.t - s.t + d by ring, add_smul]; abel
        have e2 : ‖d • (z.v - w t)‖ ≤ h * (c * F * ρ) := by
          rw [norm_smul, Real.norm_eq_abs, ← mul_assoc]; gcongr
        have := norm_add_le (z.x - s.x - (z.t - s.t) • w t) (d • (z.v - w t))
        rw [e1]
        linarith
      · have : 0 ≤ h * (c * (F * L + Λ * A) * ρ) := by positivity
        linarith
    | kick k =>
      replace hu : |(k : ℝ)| ≤ c := hu
      have b1 := Q.gb t ht z.x (hxr.trans hρ)
      have b2 := Q.gl t ht z.x (hxr.trans hρ)
      have b3 := H.acc t ht z.x (hxr.trans hρ)
      have b4 := H.lip t ht z.x (q t) (hxr.trans hρ) (by simpa using hr)
      have b5 := H.acc_on ht
      have hmove : ‖(h * k * g z.x) • a z.x‖ ≤ h * speed c r A V F := by
        rw [norm_smul, Real.norm_eq_abs, abs_mul, abs_mul, abs_of_nonneg hh]
        calc h * |(k : ℝ)| * |g z.x| * ‖a z.x‖ ≤ h * c * F * A := by gcongr
          _ ≤ h * c * F * (V + r + A) := mul_le_mul_of_nonneg_left (by linarith) (by positivity)
          _ = h * speed c r A V F := by unfold speed; ring
      have hdev : ‖(h * k * g z.x) • a z.x - (h * k * g (q t)) • a (q t)‖ ≤ h * (c * (F * L + Λ * A) * ρ) := by
        have e1 : (h * k * g z.x) • a z.x - (h * k * g (q t)) • a (q t) = (h * k * g z.x) • (a z.x - a (q t)) + (h * k * (g z.x - g (q t))) • a (q t) := by
          rw [smul_sub, mul_sub, sub_smul]; abel
        have e2 : ‖(h * k * g z.x) • (a z.x - a (q t))‖ ≤ h * c * F * (L * ρ) := by
          rw [norm_smul, Real.norm_eq_abs, abs_mul, abs_mul, abs_of_nonneg hh]
          gcongr
          exact b4.trans (by gcongr)
        have e3 : ‖(h * k * (g z.x - g (q t))) • a (q t)‖ ≤ h * c * (Λ * ρ) * A := by
          rw [norm_smul, Real.norm_eq_abs, abs_mul, abs_mul, abs_of_nonneg hh]
          gcongr
          exact b2.trans (by gcongr)
        have := norm_add_le ((h * k * g z.x) • (a z.x - a (q t))) ((h * k * (g z.x - g (q t))) • a (q t))
        rw [e1]
        have e4 : h * (c * (F * L + Λ * A) * ρ) = h * c * F * (L * ρ) + h * c * (Λ * ρ) * A := by ring
        linarith
      simp only [tstage, sumDrift_snoc, sumKick_snoc, add_zero, Rat.cast_add]
      refine ⟨?_, ?_, ?_, ?_, ?_, ?_⟩
      · linarith
      · have := norm_add_le (z.v - w t) ((h * k * g z.x) • a z.x)
        rw [show z.v + (h * k * g z.x) • a z.x - w t = z.v - w t + (h * k * g z.x) • a z.x by abel]
        linarith
      · have : 0 ≤ h * (c * F) := by positivity
        linarith
      · have : 0 ≤ h * (c * Λ * ρ) := by positivity
        linarith
      · have : 0 ≤ h * (c * F * ρ) := by positivity
        linarith
      · have e1 : z.v + (h * k * g z.x) • a z.x - s.v - (h * ((sumKick l : ℝ) + k) * g (q t)) • a (q t) =
            (z.v - s.v - (h * (sumKick l : ℝ) * g (q t)) • a (q t)) + ((h * k * g z.x) • a z.x - (h * k * g (q t)) • a (q t)) := by
          rw [mul_add, add_mul, add_smul]; abel
        have := norm_add_le (z.v - s.v - (h * (sumKick l : ℝ) * g (q t)) • a (q t)) ((h * k * g z.x) • a z.x - (h * k * g (q t)) • a (q t))
        rw [e1]
        linarith

/-- the constant of one step -/
noncomputable def tconst (N c r A L V F Λ : ℝ) : ℝ :=
  N * (c * (F + F * L + 2 * (Λ * A))) * (1 + N * speed c r A V F) + 2 * (F * A) + (A + L * V) * (N * (c * F)) ^ 2

/-- One step from a state at the distance `e` from the motion. -/
theorem tone (H : Tube a q w T r A L V) (Q : Clocks f g q w T r F Λ f0) {N c h δ e : ℝ} {l : List Stage} (hN : (l.length : ℝ) ≤ N) (hc : 0 ≤ c)
    (hl : ∀ u ∈ l, |((coef u : ℚ) : ℝ)| ≤ c) (hh : 0 ≤ h) (hδ : |(sumDrift l : ℝ) - 1| ≤ δ) (hδ' : |(sumKick l : ℝ) - 1| ≤ δ) (hδ2 : δ ≤ 1 / 2)
    (s : TS E) (ht : s.t ∈ Icc 0 T) (hx : ‖s.x - q s.t‖ ≤ e) (hv : ‖s.v - w s.t‖ ≤ e)
    (h1 : e + N * (h * speed c r A V F) ≤ r) (h2 : N * (c * Λ * (e + N * (h * speed c r A V F))) ≤ f0 / 4) (h3 : V * (N * (h * (c * F))) ≤ r)
    (htT : (tstep a f g l h s).t ≤ T) :
    s.t + h * (f0 / 4) ≤ (tstep a f g l h s).t ∧
    ‖(tstep a f g l h s).x - q (tstep a f g l h s).t‖ ≤ e + h * (tconst N c r A L V F Λ * (e + h + δ)) ∧
    ‖(tstep a f g l h s).v - w (tstep a f g l h s).t‖ ≤ e + h * (tconst N c r A L V F Λ * (e + h + δ)) := by
  have hr := H.hr.le
  have hA := H.hA
  have hL := H.hL
  have hV := H.hV
  have hF := Q.hF
  have hΛ := Q.hΛ
  have hf0 := Q.hf0
  have he : 0 ≤ e := (norm_nonneg _).trans hx
  have hN0 : 0 ≤ N := le_trans (by positivity) hN
  have hδ0 : 0 ≤ δ := (abs_nonneg _).trans hδ
  have hsp : 0 ≤ speed c r A V F := by unfold speed; positivity
  set ρ := e + N * (h * speed c r A V F) with hρ
  have hρ0 : 0 ≤ ρ := by rw [hρ]; positivity
  have hle : e + l.length * (h * speed c r A V F) ≤ ρ := by
    rw [hρ]
    have := mul_le_mul_of_nonneg_right hN (mul_nonneg hh hsp)
    linarith
  obtain ⟨_, _, i3, i4, i5, i6⟩ := inner H Q ht hh hc h1 s hx hv l hl hle
  set z := tstep a f g l h s with hz
  have up : ∀ y : ℝ, 0 ≤ y → (l.length : ℝ) * y ≤ N * y := fun y hy => mul_le_mul_of_nonneg_right hN hy
  have j3 := i3.trans (up _ (by positivity))
  have j4 := i4.trans (up _ (by positivity))
  have j5 := i5.trans (up _ (by positivity))
  have j6 := i6.trans (up _ (by positivity))
  have hfp := Q.pos s.t ht
  have hfb : |f (w s.t)| ≤ F := Q.fb s.t ht _ (by simpa using hr)
  have hD : h * (f0 / 4) ≤ z.t - s.t := by
    have b1 : N * (h * (c * Λ * ρ)) ≤ h * (f0 / 4) := by
      have := mul_le_mul_of_nonneg_left h2 hh
      linarith [show h * (N * (c * Λ * ρ)) = N * (h * (c * Λ * ρ)) by ring]
    have b2 : (1 : ℝ) / 2 ≤ sumDrift l := by linarith [neg_le_of_abs_le hδ]
    have b3 : h * (f0 / 2) ≤ h * (sumDrift l : ℝ) * f (w s.t) := by
      rw [mul_assoc]
      refine mul_le_mul_of_nonneg_left ?_ hh
      nlinarith
    linarith [neg_le_of_abs_le j4]
  have hD0 : 0 ≤ z.t - s.t := le_trans (by positivity) hD
  have hD1 : z.t - s.t ≤ N * (h * (c * F)) := (le_abs_self _).trans j3
  have hDsq : (z.t - s.t) * (z.t - s.t) ≤ h * (h * (N * (c * F)) ^ 2) := by
    have := mul_le_mul hD1 hD1 hD0 (by positivity)
    linarith [show N * (h * (c * F)) * (N * (h * (c * F))) = h * (h * (N * (c * F)) ^ 2) by ring]
  have sub : Icc s.t (s.t + (z.t - s.t)) ⊆ Icc 0 T := Icc_subset_Icc ht.1 (by linarith)
  have dev : ∀ u ∈ Icc s.t (s.t + (z.t - s.t)), |u - s.t| ≤ z.t - s.t := fun u hu => by
    rw [abs_of_nonneg (by linarith [hu.1])]; linarith [hu.2]
  have tx := taylor1 (y := q) (w := w) (W := A * (z.t - s.t)) hD0 (fun u hu => (H.dq u (sub hu)).mono sub) (fun u hu =>
    (H.v_near ht (sub hu)).trans (mul_le_mul_of_nonneg_left (dev u hu) hA))
  have tv := taylor1 (y := w) (w := fun u => a (q u)) (W := L * V * (z.t - s.t)) hD0 (fun u hu => (H.dv u (sub hu)).mono sub) (fun u hu =>
    (H.a_near ht (sub hu) (le_trans (mul_le_mul_of_nonneg_left ((dev u hu).trans hD1) hV) h3)).trans
      (mul_le_mul_of_nonneg_left (dev u hu) (mul_nonneg hL hV)))
  rw [show s.t + (z.t - s.t) = z.t by ring] at tx tv
  have hM : 0 ≤ tconst N c r A L V F Λ := by unfold tconst; positivity
  have hρe : ρ ≤ (1 + N * speed c r A V F) * (e + h) := by
    rw [hρ]
    have p1 : 0 ≤ N * speed c r A V F * e := by positivity
    have p2 : (1 + N * speed c r A V F) * (e + h) = e + N * (h * speed c r A V F) + (h + N * speed c r A V F * e) := by ring
    linarith only [p1, p2, hh]
  have fin : N * (h * (c * (F + F * L + 2 * (Λ * A)) * ρ)) + h * (2 * δ * (F * A)) + (A + L * V) * (h * (h * (N * (c * F)) ^ 2)) ≤
      h * (tconst N c r A L V F Λ * (e + h + δ)) := by
    have e1 : N * (h * (c * (F + F * L + 2 * (Λ * A)) * ρ)) + h * (2 * δ * (F * A)) + (A + L * V) * (h * (h * (N * (c * F)) ^ 2)) =
        h * (N * (c * (F + F * L + 2 * (Λ * A))) * ρ + 2 * (F * A) * δ + (A + L * V) * (N * (c * F)) ^ 2 * h) := by ring
    rw [e1]
    refine mul_le_mul_of_nonneg_left ?_ hh
    have p1 : 0 ≤ N * (c * (F + F * L + 2 * (Λ * A))) := by positivity
    have p2 : 0 ≤ 2 * (F * A) := by positivity
    have p3 : 0 ≤ (A + L * V) * (N * (c * F)) ^ 2 := by positivity
    have q1 : N * (c * (F + F * L + 2 * (Λ * A))) * ρ ≤ N * (c * (F + F * L + 2 * (Λ * A))) * ((1 + N * speed c r A V F) * (e + h + δ)) := by
      refine mul_le_mul_of_nonneg_left (hρe.trans (mul_le_mul_of_nonneg_left (by linarith) (by positivity))) p1
    have q2 : 2 * (F * A) * δ ≤ 2 * (F * A) * (e + h + δ) := mul_le_mul_of_nonneg_left (by linarith) p2
    have q3 : (A + L * V) * (N * (c * F)) ^ 2 * h ≤ (A + L * V) * (N * (c * F)) ^ 2 * (e + h + δ) := mul_le_mul_of_nonneg_left (by linarith) p3
    unfold tconst
    linarith
  refine ⟨by linarith, ?_, ?_⟩
  · have e1 : z.x - q z.t = (z.x - s.x - (z.t - s.t) • w s.t) + (s.x - q s.t) - (q z.t - q s.t - (z.t - s.t) • w s.t) := by abel
    have n1 := norm_sub_le ((z.x - s.x - (z.t - s.t) • w s.t) + (s.x - q s.t)) (q z.t - q s.t - (z.t - s.t) • w s.t)
    have n2 := norm_add_le (z.x - s.x - (z.t - s.t) • w s.t) (s.x - q s.t)
    have n3 : A * (z.t - s.t) * (z.t - s.t) ≤ (A + L * V) * (h * (h * (N * (c * F)) ^ 2)) := by
      rw [mul_assoc]
      refine mul_le_mul (by linarith only [mul_nonneg hL hV]) hDsq (by positivity) (by positivity)
    have n4 : N * (h * (c * F * ρ)) ≤ N * (h * (c * (F + F * L + 2 * (Λ * A)) * ρ)) := by
      have : 0 ≤ F * L + 2 * (Λ * A) := by positivity
      gcongr
      linarith
    have n5 : 0 ≤ h * (2 * δ * (F * A)) := by positivity
    rw [e1]
    linarith
  · have hκ : |h * (sumKick l : ℝ) * g (q s.t) - (z.t - s.t)| ≤ N * (h * (c * Λ * ρ)) + h * (2 * δ * F) := by
      rw [← Q.eq s.t ht]
      have k1 : h * (sumKick l : ℝ) * f (w s.t) - (z.t - s.t) = h * ((sumKick l : ℝ) - 1 - ((sumDrift l : ℝ) - 1)) * f (w s.t) -
          (z.t - s.t - h * (sumDrift l : ℝ) * f (w s.t)) := by ring
      have k2 : |h * ((sumKick l : ℝ) - 1 - ((sumDrift l : ℝ) - 1)) * f (w s.t)| ≤ h * (2 * δ * F) := by
        rw [abs_mul, abs_mul, abs_of_nonneg hh, mul_assoc]
        have := abs_sub ((sumKick l : ℝ) - 1) ((sumDrift l : ℝ) - 1)
        have k3 : |(sumKick l : ℝ) - 1 - ((sumDrift l : ℝ) - 1)| ≤ 2 * δ := by linarith
        gcongr
      rw [k1]
      have := abs_sub (h * ((sumKick l : ℝ) - 1 - ((sumDrift l : ℝ) - 1)) * f (w s.t)) (z.t - s.t - h * (sumDrift l : ℝ) * f (w s.t))
      linarith
    have hκ' : ‖(h * (sumKick l : ℝ) * g (q s.t) - (z.t - s.t)) • a (q s.t)‖ ≤ N * (h * (c * Λ * ρ)) * A + h * (2 * δ * (F * A)) := by
      rw [norm_smul, Real.norm_eq_abs]
      have := mul_le_mul hκ (H.acc_on ht) (norm_nonneg _) (by positivity)
      linarith [show (N * (h * (c * Λ * ρ)) + h * (2 * δ * F)) * A = N * (h * (c * Λ * ρ)) * A + h * (2 * δ * (F * A)) by ring]
    have e1 : z.v - w z.t = (z.v - s.v - (h * (sumKick l : ℝ) * g (q s.t)) • a (q s.t)) + (s.v - w s.t) +
        (h * (sumKick l : ℝ) * g (q s.t) - (z.t - s.t)) • a (q s.t) - (w z.t - w s.t - (z.t - s.t) • a (q s.t)) := by
      rw [sub_smul]; abel
    have n1 := norm_sub_le ((z.v - s.v - (h * (sumKick l : ℝ) * g (q s.t)) • a (q s.t)) + (s.v - w s.t) +
        (h * (sumKick l : ℝ) * g (q s.t) - (z.t - s.t)) • a (q s.t)) (w z.t - w s.t - (z.t - s.t) • a (q s.t))
    have n2 := norm_add₃_le (a := z.v - s.v - (h * (sumKick l : ℝ) * g (q s.t)) • a (q s.t)) (b := s.v - w s.t)
        (c := (h * (sumKick l : ℝ) * g (q s.t) - (z.t - s.t)) • a (q s.t))
    have n3 : L * V * (z.t - s.t) * (z.t - s.t) ≤ (A + L * V) * (h * (h * (N * (c * F)) ^ 2)) := by
      rw [mul_assoc]
      refine mul_le_mul (by linarith) hDsq (by positivity) (by positivity)
    have n4 : N * (h * (c * (F * L + Λ * A) * ρ)) + N * (h * (c * Λ * ρ)) * A ≤ N * (h * (c * (F + F * L + 2 * (Λ * A)) * ρ)) := by
      have : 0 ≤ N * (h * (c * F * ρ)) := by positivity
      linarith [show N * (h * (c * (F + F * L + 2 * (Λ * A)) * ρ)) = N * (h * (c * F * ρ)) + (N * (h * (c * (F * L + Λ * A) * ρ)) + N * (h * (c * Λ * ρ)) * A) by ring]
    rw [e1]
    linarith

/-- the constant of all steps up to the time `T` -/
noncomputable def tglob (N c T r A L V F Λ f0 : ℝ) : ℝ :=
  exp (tconst N c r A L V F Λ * (4 * T / f0)) * ((4 * T / f0) * tconst N c r A L V F Λ)

/-- steps that are small enough -/
structure Small (N c T r A L V F Λ f0 hm δ : ℝ) : Prop where
  half : δ ≤ 1 / 2
  one : tglob N c T r A L V F Λ f0 * (hm + δ) + N * (hm * speed c r A V F) ≤ r
  two : N * (c * Λ * (tglob N c T r A L V F Λ f0 * (hm + δ) + N * (hm * speed c r A V F))) ≤ f0 / 4
  three : V * (N * (hm * (c * F))) ≤ r

/-- The state `z` after steps of total length `σ`. -/
structure Near (q w : ℝ → E) (T f0 M ε σ : ℝ) (z : TS E) : Prop where
  hσ : 0 ≤ σ
  low : σ * (f0 / 4) ≤ z.t
  high : z.t ≤ T
  pos : ‖z.x - q z.t‖ ≤ exp (M * σ) * (σ * (M * ε))
  vel : ‖z.v - w z.t‖ ≤ exp (M * σ) * (σ * (M * ε))

omit [NormedSpace ℝ E] in
theorem Near.le {M ε σ : ℝ} {z : TS E} (hM : 0 ≤ M) (hε : 0 ≤ ε) (hf : 0 < f0) (Y : Near q w T f0 M ε σ z) :
    exp (M * σ) * (σ * (M * ε)) ≤ exp (M * (4 * T / f0)) * ((4 * T / f0) * M) * ε := by
  have h1 : σ ≤ 4 * T / f0 := by
    rw [le_div_iff₀ hf]
    have := Y.low.trans Y.high
    linarith
  have := Y.hσ
  calc exp (M * σ) * (σ * (M * ε)) ≤ exp (M * (4 * T / f0)) * ((4 * T / f0) * (M * ε)) := by gcongr
    _ = _ := by ring

/-- One more step: it stays in the neighbourhood where the force is bounded, and if it does not lead beyond `T`, the bound on the error goes on. -/
theorem Near.next (H : Tube a q w T r A L V) (Q : Clocks f g q w T r F Λ f0) {N c hm δ σ h : ℝ} {l : List Stage} (hN : (l.length : ℝ) ≤ N) (hc : 0 ≤ c)
    (hl : ∀ u ∈ l, |((coef u : ℚ) : ℝ)| ≤ c) (h0 : 0 ≤ h) (h1 : h ≤ hm) (hδ : |(sumDrift l : ℝ) - 1| ≤ δ) (hδ' : |(sumKick l : ℝ) - 1| ≤ δ)
    (Sm : Small N c T r A L V F Λ f0 hm δ) {z : TS E} (Y : Near q w T f0 (tconst N c r A L V F Λ) (hm + δ) σ z) :
    (∀ pre suf, l = pre ++ suf → ‖(tstep a f g pre h z).x - q z.t‖ ≤ r ∧ ‖(tstep a f g pre h z).v - w z.t‖ ≤ r) ∧
    ((tstep a f g l h z).t ≤ T → Near q w T f0 (tconst N c r A L V F Λ) (hm + δ) (σ + h) (tstep a f g l h z)) := by
  have hr := H.hr.le
  have hA := H.hA
  have hL := H.hL
  have hV := H.hV
  have hF := Q.hF
  have hΛ := Q.hΛ
  have hf0 := Q.hf0
  have hN0 : 0 ≤ N := le_trans (by positivity) hN
  have hδ0 : 0 ≤ δ := (abs_nonneg _).trans hδ
  have hsp : 0 ≤ speed c r A V F := by unfold speed; positivity
  have hM : 0 ≤ tconst N c r A L V F Λ := by unfold tconst; positivity
  have hm0 : 0 ≤ hm := h0.trans h1
  have hσ := Y.hσ
  have ht : z.t ∈ Icc 0 T := ⟨le_trans (by positivity) Y.low, Y.high⟩
  have hle : exp (tconst N c r A L V F Λ * σ) * (σ * (tconst N c r A L V F Λ * (hm + δ))) ≤ tglob N c T r A L V F Λ f0 * (hm + δ) :=
    Y.le hM (by positivity) hf0
  have hstep : N * (h * speed c r A V F) ≤ N * (hm * speed c r A V F) := by gcongr
  have hsm : exp (tconst N c r A L V F Λ * σ) * (σ * (tconst N c r A L V F Λ * (hm + δ))) + N * (h * speed c r A V F) ≤
      tglob N c T r A L V F Λ f0 * (hm + δ) + N * (hm * speed c r A V F) := by linarith
  constructor
  · intro pre suf e
    have hpl : (pre.length : ℝ) ≤ N := by
      refine le_trans ?_ hN
      rw [e, List.length_append]
      push_cast
      linarith [Nat.cast_nonneg (α := ℝ) suf.length]
    have hb : exp (tconst N c r A L V F Λ * σ) * (σ * (tconst N c r A L V F Λ * (hm + δ))) + pre.length * (h * speed c r A V F) ≤ r := by
      have : (pre.length : ℝ) * (h * speed c r A V F) ≤ N * (h * speed c r A V F) := mul_le_mul_of_nonneg_right hpl (mul_nonneg h0 hsp)
      linarith [Sm.one]
    obtain ⟨i1, i2, _⟩ := inner H Q ht h0 hc le_rfl z Y.pos Y.vel pre (fun u hu => hl u (e ▸ List.mem_append_left _ hu)) hb
    exact ⟨i1.trans hb, i2.trans hb⟩
  · intro hT
    set M := tconst N c r A L V F Λ with hMd
    set ε := hm + δ with hε
    have hε0 : 0 ≤ ε := by rw [hε]; positivity
    obtain ⟨o1, o2, o3⟩ := tone H Q hN hc hl h0 hδ hδ' Sm.half z ht Y.pos Y.vel (hsm.trans Sm.one)
      (le_trans (by gcongr) Sm.two) (le_trans (by gcongr) Sm.three) hT
    rw [← hMd] at o2 o3
    have grow : exp (M * σ) * (σ * (M * ε)) + h * (M * (exp (M * σ) * (σ * (M * ε)) + h + δ)) ≤ exp (M * (σ + h)) * ((σ + h) * (M * ε)) := by
      have e1 : exp (M * (σ + h)) = exp (M * σ) * exp (M * h) := by rw [← exp_add]; ring_nf
      have e2 : 1 + M * h ≤ exp (M * h) := by have := add_one_le_exp (M * h); linarith
      have e3 : 1 ≤ exp (M * (σ + h)) := one_le_exp (by positivity)
      have k1 : exp (M * σ) * (σ * (M * ε)) * (1 + M * h) ≤ exp (M * (σ + h)) * (σ * (M * ε)) := by
        rw [e1]
        calc exp (M * σ) * (σ * (M * ε)) * (1 + M * h) ≤ exp (M * σ) * (σ * (M * ε)) * exp (M * h) := by gcongr
          _ = _ := by ring
      have k2 : h * (M * (h + δ)) ≤ exp (M * (σ + h)) * (h * (M * ε)) := by
        have k3 : h * (M * (h + δ)) ≤ h * (M * ε) := by rw [hε]; gcongr
        have k4 : 0 ≤ h * (M * ε) := by positivity
        nlinarith
      have k5 : exp (M * (σ + h)) * ((σ + h) * (M * ε)) = exp (M * (σ + h)) * (σ * (M * ε)) + exp (M * (σ + h)) * (h * (M * ε)) := by ring
      have k6 : exp (M * σ) * (σ * (M * ε)) + h * (M * (exp (M * σ) * (σ * (M * ε)) + h + δ)) =
          exp (M * σ) * (σ * (M * ε)) * (1 + M * h) + h * (M * (h + δ)) := by ring
      linarith
    refine ⟨by positivity, ?_, hT, o2.trans grow, o3.trans grow⟩
    have := Y.low
    linarith

/-- Small steps exist. -/
theorem exists_small (H : Tube a q w T r A L V) (Q : Clocks f g q w T r F Λ f0) (hT : 0 ≤ T) {N c : ℝ} (hN : 0 ≤ N) (hc : 0 ≤ c) :
    ∃ η > 0, ∀ hm δ, 0 ≤ hm → 0 ≤ δ → hm + δ ≤ η → Small N c T r A L V F Λ f0 hm δ := by
  have hr := H.hr
  have hA := H.hA
  have hL := H.hL
  have hV := H.hV
  have hF := Q.hF
  have hΛ := Q.hΛ
  have hf0 := Q.hf0
  have hsp : 0 ≤ speed c r A V F := by unfold speed; positivity
  have hM : 0 ≤ tconst N c r A L V F Λ := by unfold tconst; positivity
  have hK : 0 ≤ tglob N c T r A L V F Λ f0 := by unfold tglob; positivity
  set k1 := tglob N c T r A L V F Λ f0 + N * speed c r A V F with hk1
  have hk10 : 0 ≤ k1 := by rw [hk1]; positivity
  have small : ∀ (k b : ℝ), 0 ≤ k → 0 < b → ∃ η > 0, ∀ x, 0 ≤ x → x ≤ η → k * x ≤ b := fun k b hk hb => by
    refine ⟨b / (k + 1), by positivity, fun x hx hxη => ?_⟩
    have := mul_le_mul_of_nonneg_left hxη hk
    refine this.trans ?_
    rw [mul_div_assoc', div_le_iff₀ (by linarith)]
    nlinarith
  obtain ⟨η1, p1, q1⟩ := small k1 r hk10 hr
  obtain ⟨η2, p2, q2⟩ := small (N * (c * Λ * k1)) (f0 / 4) (by positivity) (by positivity)
  obtain ⟨η3, p3, q3⟩ := small (V * (N * (c * F))) r (by positivity) hr
  refine ⟨min (min η1 η2) (min η3 (1 / 2)), by positivity, fun hm δ hm0 hδ hle => ?_⟩
  have l1 : hm + δ ≤ η1 := hle.trans ((min_le_left _ _).trans (min_le_left _ _))
  have l2 : hm + δ ≤ η2 := hle.trans ((min_le_left _ _).trans (min_le_right _ _))
  have l3 : hm + δ ≤ η3 := hle.trans ((min_le_right _ _).trans (min_le_left _ _))
  have l4 : hm + δ ≤ 1 / 2 := hle.trans ((min_le_right _ _).trans (min_le_right _ _))
  have b : tglob N c T r A L V F Λ f0 * (hm + δ) + N * (hm * speed c r A V F) ≤ k1 * (hm + δ) := by
    have : 0 ≤ N * speed c r A V F * δ := by positivity
    rw [hk1]
    linarith [show (tglob N c T r A L V F Λ f0 + N * speed c r A V F) * (hm + δ) =
      tglob N c T r A L V F Λ f0 * (hm + δ) + N * (hm * speed c r A V F) + N * speed c r A V F * δ by ring]
  refine ⟨by linarith, b.trans (q1 _ (by positivity) l1), ?_, ?_⟩
  · have := q2 _ (by positivity) l2
    refine le_trans ?_ this
    calc N * (c * Λ * (tglob N c T r A L V F Λ f0 * (hm + δ) + N * (hm * speed c r A V F))) ≤ N * (c * Λ * (k1 * (hm + δ))) := by gcongr
      _ = _ := by ring
  · have := q3 _ (by positivity) l3
    refine le_trans ?_ this
    calc V * (N * (hm * (c * F))) ≤ V * (N * ((hm + δ) * (c * F))) := by gcongr; linarith
      _ = _ := by ring

end SpaceHub.Converge
