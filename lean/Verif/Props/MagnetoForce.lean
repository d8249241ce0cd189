import Verif.Props.Magneto
import Verif.Proof.Force
import Verif.Proof.Orbit

/-
C81: the drag of the tabulated gas disc.
-/

set_option autoImplicit false

namespace SpaceHub.Props
open SpaceHub Orbit Spec.Orbit Profile Magneto Finset

attribute [local irreducible] lgR lgRho lgH vel gdfI gdfLgM diskRho diskH diskV dragI cm xOut

/-- What the gas does to particle `k` according to the tables: `w` is the velocity relative to the gas, `c` the velocity of sound (`Omega * H`), `I` the
factor of dynamical friction at the Mach number `|w| / c`; `f` is the sum of dynamical friction and aerodynamic drag. -/
structure DragAt (rad : Arr ℝ) (P : Force.Particles) (k : Nat) (w : V3 ℝ) (f : ℝ) : Prop where
  state : ∃ rho H I v, diskRho (P.pos k - P.pos 0) = .ok rho ∧ diskV (P.pos k - P.pos 0) = .ok v ∧ diskH (P.pos k - P.pos 0) = .ok H ∧
    w = P.vel k - P.vel 0 - v ∧
    dragI (len w / (Real.sqrt (P.mass 0 / len (P.pos k - P.pos 0) ^ 3) * H)) = .ok I ∧
    f = 4 * Real.pi * I * P.mass k ^ 2 / (Real.sqrt (P.mass 0 / len (P.pos k - P.pos 0) ^ 3) * H) ^ 2 * rho +
      4 * Real.pi * rad k ^ 2 * rho * len w ^ 2
  moving : w ≠ 0
  sign : 0 ≤ f
  strict : rad k ≠ 0 → 0 < f

theorem dragI_nonneg {M I : ℝ} (hM : 0 ≤ M) (h : dragI M = .ok I) : 0 ≤ I := by
  rcases eq_or_lt_of_le hM with h0 | h0
  · subst h0
    rcases drag_cases 0 le_rfl with ⟨_, e⟩ | ⟨h1, _⟩ | ⟨h1, _⟩ | ⟨h1, _⟩
    · rw [h] at e; injection e with e; rw [e]; norm_num
    all_goals norm_num at h1
  · by_cases hw : ((10:ℝ) ^ xOut ≤ M ∧ M < 100)
    · rw [(C79_drag_reads_outside M h0).mpr hw] at h; cases h
    · obtain ⟨J, e, h1, _⟩ := C79_drag_inside M h0 hw
      rw [h] at e; injection e with e; rw [e]; exact h1

theorem fdiv_ok {x y z : ℝ} : fdiv x y = .ok z ↔ y ≠ 0 ∧ z = x / y := by
  unfold fdiv
  by_cases h : y = 0
  · simp [h]
  · simp [h, eq_comm]

theorem vdiv_ok {x z : V3 ℝ} {y : ℝ} : vdiv x y = .ok z ↔ y ≠ 0 ∧ z = x / y := by
  unfold vdiv
  by_cases h : y = 0
  · simp [h]
  · simp [h, eq_comm]

theorem fsqrt_ok {x z : ℝ} : fsqrt x = .ok z ↔ 0 ≤ x ∧ z = Real.sqrt x := by
  unfold fsqrt
  by_cases h : x < 0
  · simp [h]
  · simp [h, eq_comm, not_lt.mp h]

theorem body_ok {rad : Arr ℝ} {P : Force.Particles} {i : Nat} {acc acc' : Arr (V3 ℝ)} (h : body rad P i acc = .ok acc') (hi : i ≠ 0) :
    ∃ w f, DragAt rad P i w f ∧ P.mass i ≠ 0 ∧ P.mass 0 ≠ 0 ∧
      acc' i = acc i - (f / len w / P.mass i) • w ∧ acc' 0 = acc 0 + (f / len w / P.mass 0) • w ∧ ∀ k, k ≠ i → k ≠ 0 → acc' k = acc k := by
  simp only [body, Sys.Res.bind_eq_ok, fdiv_ok, vdiv_ok, fsqrt_ok] at h
  obtain ⟨rho, h1, v, h2, H, h3, q, ⟨hr, rfl⟩, Om, ⟨hq, rfl⟩, M, ⟨hcs, rfl⟩, I, hI, ww, ⟨hc2, rfl⟩, u, ⟨hv, rfl⟩, ai, ⟨hmi, rfl⟩, a0, ⟨hm0, rfl⟩, e⟩ := h
  set w := P.vel i - P.vel 0 - v with hw
  set dr := P.pos i - P.pos 0 with hdr
  have hn : Orbit.norm dr = len dr := norm_eq_len dr
  have hlw : Real.sqrt (w.dot w) = len w := by simp only [len, V3.dot, pow_two]
  have e1 : Real.sqrt (G * P.mass 0 / (Orbit.norm dr * Orbit.norm dr * Orbit.norm dr)) = Real.sqrt (P.mass 0 / len dr ^ 3) := by
    rw [hn, G]; congr 1; ring
  rw [e1] at hI hcs hc2
  rw [hlw] at hI hv
  obtain ⟨⟨rho', hrho, e2⟩, ⟨H', hH, e3⟩, _⟩ := C79_disk_profiles dr
  rw [h1] at e2; injection e2 with e2; subst e2
  rw [h3] at e3; injection e3 with e3; subst e3
  have hM : 0 ≤ len w / (Real.sqrt (P.mass 0 / len dr ^ 3) * H) :=
    div_nonneg (len_nonneg w) (mul_nonneg (Real.sqrt_nonneg _) hH.le)
  have hI0 := dragI_nonneg hM hI
  have hwp : 0 < len w := lt_of_le_of_ne (len_nonneg w) (Ne.symm hv)
  have hsq : w.dot w = len w ^ 2 := (len_sq w).symm
  set f := 4 * Real.pi * I * P.mass i ^ 2 / (Real.sqrt (P.mass 0 / len dr ^ 3) * H) ^ 2 * rho + 4 * Real.pi * rad i ^ 2 * rho * len w ^ 2 with hf
  have hpi := Real.pi_pos
  have hfe : I * 4 * Real.pi * G * G * P.mass i * P.mass i / (Real.sqrt (G * P.mass 0 / (Orbit.norm dr * Orbit.norm dr * Orbit.norm dr)) * H *
      (Real.sqrt (G * P.mass 0 / (Orbit.norm dr * Orbit.norm dr * Orbit.norm dr)) * H)) * rho + 4 * Real.pi * rad i * rad i * rho * w.dot w = f := by
    rw [e1, hsq, hf, G]; ring
  rw [hfe, hlw] at e
  refine ⟨w, f, ⟨⟨rho, H, I, v, h1, h2, h3, rfl, hI, rfl⟩, ?_, ?_, ?_⟩, hmi, hm0, ?_⟩
  · intro h0; rw [h0] at hv; exact hv (len_eq_zero.mpr rfl)
  · positivity
  · intro hR
    have : 0 < 4 * Real.pi * rad i ^ 2 * rho * len w ^ 2 := by positivity
    have : 0 ≤ 4 * Real.pi * I * P.mass i ^ 2 / (Real.sqrt (P.mass 0 / len dr ^ 3) * H) ^ 2 * rho := by positivity
    linarith
  · injection e with e
    subst e
    have e5 : ∀ m : ℝ, (f • w) / len w / m = (f / len w / m) • w := by
      intro m; ext <;> simp <;> ring
    refine ⟨?_, ?_, ?_⟩
    · simp [Arr.set, hi, e5]
    · simp [Arr.set, Ne.symm hi, e5]
    · intro k hk hk0; simp [Arr.set, hk, hk0]

theorem fold_ok {rad : Arr ℝ} {P : Force.Particles} (l : List Nat) (hl : l.Nodup) (h0 : 0 ∉ l) : ∀ {acc acc' : Arr (V3 ℝ)},
    l.foldlM (fun acc i => body rad P i acc) acc = .ok acc' →
    (∀ i ∈ l, ∃ w f, DragAt rad P i w f ∧ P.mass i ≠ 0 ∧ acc' i = acc i - (f / len w / P.mass i) • w) ∧
    (∀ k, k ∉ l → k ≠ 0 → acc' k = acc k) ∧
    (l ≠ [] → P.mass 0 ≠ 0) ∧
    P.mass 0 • acc' 0 + (l.map fun i => P.mass i • acc' i).sum = P.mass 0 • acc 0 + (l.map fun i => P.mass i • acc i).sum := by
  induction l with
  | nil =>
    intro acc acc' h
    injection h with h
    subst h
    simp
  | cons i l ih =>
    intro acc acc' h
    rw [List.foldlM_cons, Sys.Res.bind_eq_ok] at h
    obtain ⟨acc1, h1, h2⟩ := h
    have hi0 : i ≠ 0 := fun h => h0 (by simp [h])
    have hil : i ∉ l := (List.nodup_cons.mp hl).1
    obtain ⟨w, f, hd, hmi, hm0, e1, e2, e3⟩ := body_ok h1 hi0
    obtain ⟨a, b, _, c⟩ := ih (List.nodup_cons.mp hl).2 (fun h => h0 (List.mem_cons_of_mem _ h)) h2
    refine ⟨?_, ?_, fun _ => hm0, ?_⟩
    · intro k hk
      rcases List.mem_cons.mp hk with rfl | hk
      · exact ⟨w, f, hd, hmi, by rw [b _ hil hi0, e1]⟩
      · obtain ⟨w', f', hd', hm', e'⟩ := a k hk
        refine ⟨w', f', hd', hm', ?_⟩
        rw [e', e3 k (fun h => hil (h ▸ hk)) (fun h => h0 (h ▸ List.mem_cons_of_mem _ hk))]
    · intro k hk hk0
      have hki : k ≠ i := fun h => hk (by simp [h])
      rw [b k (fun h => hk (List.mem_cons_of_mem _ h)) hk0, e3 k hki hk0]
    · rw [List.map_cons, List.sum_cons, List.map_cons, List.sum_cons, b i hil hi0]
      have hsame : l.map (fun j => P.mass j • acc1 j) = l.map (fun j => P.mass j • acc j) := by
        apply List.map_congr_left
        intro j hj
        rw [e3 j (fun h => hil (h ▸ hj)) (fun h => h0 (h ▸ List.mem_cons_of_mem _ hj))]
      rw [hsame] at c
      have hbal : P.mass 0 • acc1 0 + P.mass i • acc1 i = P.mass 0 • acc 0 + P.mass i • acc i := by
        rw [e1, e2]
        ext <;> simp <;> field_simp <;> ring
      calc P.mass 0 • acc' 0 + (P.mass i • acc1 i + (l.map fun i => P.mass i • acc' i).sum)
          = (P.mass 0 • acc' 0 + (l.map fun i => P.mass i • acc' i).sum) + P.mass i • acc1 i := by abel
        _ = (P.mass 0 • acc1 0 + P.mass i • acc1 i) + (l.map fun j => P.mass j • acc j).sum := by rw [c]; abel
        _ = _ := by rw [hbal]; abel

theorem addAcc_parts {rad : Arr ℝ} {P : Force.Particles} {acc acc' : Arr (V3 ℝ)} (h : addAcc rad P acc = .ok acc') :
    (∀ i ∈ List.range' 1 (P.num - 1), ∃ w f, DragAt rad P i w f ∧ P.mass i ≠ 0 ∧ acc' i = acc i - (f / len w / P.mass i) • w) ∧
    (∀ k, k ∉ List.range' 1 (P.num - 1) → k ≠ 0 → acc' k = acc k) ∧
    (List.range' 1 (P.num - 1) ≠ [] → P.mass 0 ≠ 0) ∧
    P.mass 0 • acc' 0 + ((List.range' 1 (P.num - 1)).map fun i => P.mass i • acc' i).sum =
      P.mass 0 • acc 0 + ((List.range' 1 (P.num - 1)).map fun i => P.mass i • acc i).sum :=
  fold_ok (List.range' 1 (P.num - 1)) (List.nodup_range') (by simp [List.mem_range'_1]) h

/-- **C81, drag.** If the call returns numbers, each particle but the first has been decelerated against its velocity relative to the gas, by a force that is the
sum of dynamical friction and aerodynamic drag of the tables; and nothing is written beyond the particles. -/
theorem C81_drag (rad : Arr ℝ) (P : Force.Particles) (acc acc' : Arr (V3 ℝ)) (h : addAcc rad P acc = .ok acc') :
    (∀ k, 1 ≤ k → k < P.num → ∃ w f, DragAt rad P k w f ∧ acc' k = acc k - (f / len w / P.mass k) • w) ∧
    (∀ k, P.num ≤ k → 1 ≤ k → acc' k = acc k) := by
  obtain ⟨a, b, _⟩ := addAcc_parts h
  refine ⟨fun k h1 h2 => ?_, fun k h1 h2 => b k (by simp [List.mem_range'_1]; omega) (by omega)⟩
  obtain ⟨w, f, hd, _, e⟩ := a k (by simp [List.mem_range'_1]; omega)
  exact ⟨w, f, hd, e⟩

/-- **C81, reaction.** What the particles lose in momentum the first one gains. -/
theorem C81_momentum (rad : Arr ℝ) (P : Force.Particles) (acc acc' : Arr (V3 ℝ)) (h : addAcc rad P acc = .ok acc') (h1 : 1 ≤ P.num) :
    ∑ k ∈ range P.num, P.mass k • acc' k = ∑ k ∈ range P.num, P.mass k • acc k := by
  obtain ⟨_, _, _, c⟩ := addAcc_parts h
  have hs : ∀ a : Arr (V3 ℝ), ∑ k ∈ range P.num, P.mass k • a k =
      P.mass 0 • a 0 + ((List.range' 1 (P.num - 1)).map fun i => P.mass i • a i).sum := by
    intro a
    obtain ⟨n, hn⟩ := Nat.exists_eq_add_of_le h1
    rw [hn, Nat.add_comm, sum_range_succ', add_comm]
    congr 1
    rw [Nat.add_sub_cancel, List.range'_eq_map_range, List.map_map]
    have hl : ∀ (m : Nat) (g : Nat → V3 ℝ), ∑ k ∈ range m, g k = ((List.range m).map g).sum := by
      intro m g
      induction m with
      | zero => simp
      | succ m ih => rw [sum_range_succ, ih, List.range_succ]; simp
    rw [hl]
    congr 2
    funext k
    simp [Nat.add_comm]
  rw [hs, hs, c]

/-- **C81 is false of the code for a particle that moves with the gas**: the result is not a number (the direction of a zero vector). -/
theorem C81_at_rest_nan (rad : Arr ℝ) (P : Force.Particles) (acc : Arr (V3 ℝ)) (k : Nat) (h1 : 1 ≤ k) (hk : k < P.num)
    (hv : diskV (P.pos k - P.pos 0) = .ok (P.vel k - P.vel 0)) : ¬ ∃ acc', addAcc rad P acc = .ok acc' := by
  rintro ⟨acc', h⟩
  obtain ⟨w, f, hd, _⟩ := (C81_drag rad P acc acc' h).1 k h1 hk
  obtain ⟨_, _, _, v, _, h2, _, hw, _⟩ := hd.state
  rw [hv] at h2; injection h2 with h2
  apply hd.moving
  rw [hw, ← h2]
  ext <;> simp

/-- **C81, when it is defined.** The call returns numbers as soon as all masses are positive, no particle is on the axis or at rest relative to the
gas, and no Mach number lies in the window of C79. -/
theorem C81_defined (rad : Arr ℝ) (P : Force.Particles) (acc : Arr (V3 ℝ)) (hm : ∀ k, k < P.num → 0 < P.mass k) (h0 : 0 < P.mass 0)
    (hax : ∀ k, 1 ≤ k → k < P.num → (P.pos k - P.pos 0).x ≠ 0 ∨ (P.pos k - P.pos 0).y ≠ 0)
    (hmove : ∀ k, 1 ≤ k → k < P.num → diskV (P.pos k - P.pos 0) ≠ .ok (P.vel k - P.vel 0))
    (hmach : ∀ k, 1 ≤ k → k < P.num → ∀ v H M, diskV (P.pos k - P.pos 0) = .ok v → diskH (P.pos k - P.pos 0) = .ok H →
      M = len (P.vel k - P.vel 0 - v) / (Real.sqrt (P.mass 0 / len (P.pos k - P.pos 0) ^ 3) * H) → ¬ ((10:ℝ) ^ xOut ≤ M ∧ M < 100)) :
    ∃ acc', addAcc rad P acc = .ok acc' := by
  unfold addAcc
  have hmem : ∀ i ∈ List.range' 1 (P.num - 1), 1 ≤ i ∧ i < P.num := by
    intro i hi
    simp [List.mem_range'_1] at hi
    omega
  revert hmem
  generalize List.range' 1 (P.num - 1) = l
  induction l generalizing acc with
  | nil => intro _; exact ⟨acc, rfl⟩
  | cons i l ih =>
    intro hmem
    obtain ⟨h1, hi⟩ := hmem i (by simp)
    have : ∃ acc1, body rad P i acc = .ok acc1 := by
      set dr := P.pos i - P.pos 0 with hdr
      obtain ⟨⟨rho, hrho, e1⟩, ⟨H, hH, e3⟩, hV, _⟩ := C79_disk_profiles dr
      obtain ⟨v, e2⟩ := hV (hax i h1 hi)
      set w := P.vel i - P.vel 0 - v with hw
      have hw0 : w ≠ 0 := by
        intro h
        apply hmove i h1 hi
        rw [e2]
        congr 1
        have hh := h
        rw [V3.ext_iff] at hh
        simp [hw] at hh
        ext <;> simp <;> linarith [hh.1, hh.2.1, hh.2.2]
      have hlw : 0 < len w := dot_self_pos hw0
      have hdr0 : dr ≠ 0 := by
        intro h
        rcases hax i h1 hi with h' | h' <;> exact h' (by rw [← hdr, h]; rfl)
      have hld : 0 < len dr := dot_self_pos hdr0
      have hn : Orbit.norm dr = len dr := norm_eq_len dr
      have hcs : 0 < Real.sqrt (P.mass 0 / len dr ^ 3) * H := mul_pos (Real.sqrt_pos.mpr (by positivity)) hH
      have hM := hmach i h1 hi v H _ e2 e3 rfl
      obtain ⟨I, eI, _⟩ := C79_drag_inside _ (div_pos hlw hcs) hM
      have eq : Real.sqrt (G * P.mass 0 / (len dr * len dr * len dr)) = Real.sqrt (P.mass 0 / len dr ^ 3) := by
        rw [G]; congr 1; ring
      have hmi := hm i hi
      have hnn : ¬ (G * P.mass 0 / (len dr * len dr * len dr) < 0) := by
        rw [G, not_lt]; positivity
      have hlw' : Real.sqrt (w.dot w) = len w := by simp only [len, V3.dot, pow_two]
      simp only [body, ← hdr, e1, e2, e3, ← hw, Sys.Res.ok_bind, hn, fdiv, if_neg (show ¬ (len dr * len dr * len dr = 0) by positivity), fsqrt, if_neg hnn,
        eq, if_neg hcs.ne', hlw', eI, if_neg (mul_pos hcs hcs).ne', vdiv, if_neg hlw.ne', if_neg hmi.ne', if_neg h0.ne']
      exact ⟨_, rfl⟩
    obtain ⟨acc1, e⟩ := this
    rw [List.foldlM_cons, e, Sys.Res.ok_bind]
    exact ih acc1 (fun j hj => hmem j (by simp [hj]))

/-- A system for which the call returns numbers: two particles, the second one flying fast through the disc. -/
example : ∃ P : Force.Particles, P.num = 2 ∧ P.mass 0 = 1 ∧ P.mass 1 = 1 ∧ P.pos 1 - P.pos 0 = ⟨1, 0, 0⟩ ∧
    ∃ acc', addAcc (fun _ => 1) P (fun _ => 0) = .ok acc' := by
  obtain ⟨_, ⟨H, hH, eH⟩, hV, _⟩ := C79_disk_profiles ⟨1, 0, 0⟩
  have hd : ∀ z : ℝ, (⟨1, 0, 0⟩ : V3 ℝ) - (0 : V3 ℝ) = ⟨1, 0, 0⟩ := by intro z; ext <;> simp
  have hd' := hd 0
  have hl : len (⟨1, 0, 0⟩ : V3 ℝ) = 1 := by simp [len]
  refine ⟨⟨2, fun k => if k = 1 then ⟨1, 0, 0⟩ else 0, fun k => if k = 1 then ⟨0, 0, 100 * H⟩ else 0, fun _ => 1⟩, rfl, rfl, rfl, by simpa using hd', ?_⟩
  have hz : ∀ v : V3 ℝ, diskV ⟨1, 0, 0⟩ = .ok v → v.z = 0 := by
    intro v hv
    obtain ⟨v', _, _, e, e2, _⟩ := C80_velocity_partial ⟨1, 0, 0⟩ (Or.inl (by norm_num))
    rw [hv] at e; injection e with e; rw [e]; exact e2
  refine C81_defined _ _ _ (by simp) (by simp) ?_ ?_ ?_
  · intro k h1 h2
    have : k = 1 := by simp at h2; omega
    subst this
    simp
  · intro k h1 h2
    have : k = 1 := by simp at h2; omega
    subst this
    simp only [if_true, if_neg (show ¬ ((0:ℕ) = 1) by omega), hd']
    intro h
    have := hz _ h
    simp at this
    exact hH.ne' this
  · intro k h1 h2
    have : k = 1 := by simp at h2; omega
    subst this
    simp only [if_true, if_neg (show ¬ ((0:ℕ) = 1) by omega), hd', hl]
    intro v H' M hv hH' hM
    rw [eH] at hH'; injection hH' with hH'; subst hH'
    rintro ⟨_, h⟩
    have h3 : 100 * H ≤ len ((⟨0, 0, 100 * H⟩ : V3 ℝ) - 0 - v) := by
      refine Real.le_sqrt_of_sq_le ?_
      simp [hz v hv]
      nlinarith [sq_nonneg v.x, sq_nonneg v.y]
    rw [hM, one_pow, div_one, Real.sqrt_one, one_mul, div_lt_iff₀ hH] at h
    linarith

end SpaceHub.Props
