import Verif.Props.RoundedEnergy

/-
C120: the energy a simulation reports, for chain and ARchain systems.
-/

set_option autoImplicit false

namespace SpaceHub.Rounded
open SpaceHub V3 Force Core Integrator Spec Sys Props Converge Finset

variable {n : Nat} {m : Nat → ℝ}

/-! ### the links of a chain -/

/-- the chain `c` is that of the coordinates `x`, up to `δ` -/
def Linked (n : Nat) (δ : ℝ) (x c : Arr (V3 ℝ)) (σ : Arr Nat) : Prop :=
  (∀ i, i + 1 < n → |(c i).x - ((x (σ (i + 1))).x - (x (σ i)).x)| ≤ δ ∧ |(c i).y - ((x (σ (i + 1))).y - (x (σ i)).y)| ≤ δ ∧ |(c i).z - ((x (σ (i + 1))).z - (x (σ i)).z)| ≤ δ) ∧
    |(c (n - 1)).x - (x (σ 0)).x| ≤ δ ∧ |(c (n - 1)).y - (x (σ 0)).y| ≤ δ ∧ |(c (n - 1)).z - (x (σ 0)).z| ≤ δ

/-- a summand, of what the sum is as computed -/
theorem link_one {A : Arith} {u : ℝ} (hA : Accurate A u) (hu : 0 ≤ u) (hu1 : u ≤ 1 / 2) {a b c R : ℝ} (hb : |b| ≤ R) (e : b = A.add a c) : |c - (b - a)| ≤ 2 * R * u := by
  have h := hA.add a c
  rw [← e] at h
  have h1 : |c - (b - a)| = |b - (a + c)| := by rw [← abs_neg]; congr 1; ring
  have h2 := abs_sub_abs_le_abs_sub (a + c) b
  rw [abs_sub_comm] at h2
  have h3 := mul_le_mul_of_nonneg_right hu1 (abs_nonneg (a + c))
  have h4 : |a + c| ≤ 2 * R := by linarith
  have h5 := mul_le_mul_of_nonneg_left h4 hu
  rw [h1]
  linarith

theorem tie_links {A : Arith} {u κ R : ℝ} (hn : 1 ≤ n) (hA : Accurate A u) (hu : 0 ≤ u) (hu1 : u ≤ 1 / 2) (hκ : 0 ≤ κ) (hR : 0 ≤ R) {x c : Arr (V3 ℝ)} {σ : Arr Nat}
    (hx : ∀ i, i < n → |(x (σ i)).x| ≤ R ∧ |(x (σ i)).y| ≤ R ∧ |(x (σ i)).z| ≤ R) (h : Tie A n (κ * u) x c σ) : Linked n ((2 * κ + 2 * R) * u) x c σ := by
  have k0 : 0 ≤ κ * u := by positivity
  have r0 : 0 ≤ R * u := by positivity
  have ex : (2 * κ + 2 * R) * u = 2 * (κ * u) + 2 * (R * u) := by ring
  rcases h with h | h
  · refine ⟨fun i hi => ?_, ?_⟩
    · have e : x (σ (i + 1)) = addV A (x (σ i)) (c i) := by rw [h _ hi, h i (by omega)]; rfl
      obtain ⟨b1, b2, b3⟩ := hx (i + 1) hi
      have w1 := link_one hA hu hu1 b1 (a := (x (σ i)).x) (c := (c i).x) (by rw [e]; rfl)
      have w2 := link_one hA hu hu1 b2 (a := (x (σ i)).y) (c := (c i).y) (by rw [e]; rfl)
      have w3 := link_one hA hu hu1 b3 (a := (x (σ i)).z) (c := (c i).z) (by rw [e]; rfl)
      rw [ex]
      exact ⟨by linarith, by linarith, by linarith⟩
    · have e : x (σ 0) = c (n - 1) := h 0 (by omega)
      rw [e, sub_self, sub_self, sub_self, abs_zero, ex]
      exact ⟨by linarith, by linarith, by linarith⟩
  · have two : ∀ {a b c p q : ℝ}, |b - q| ≤ κ * u → |a - p| ≤ κ * u → q = p + c → |c - (b - a)| ≤ 2 * (κ * u) + 2 * (R * u) := by
      intro a b c p q h1 h2 e
      have e1 : c - (b - a) = (a - p) - (b - q) := by rw [e]; ring
      rw [e1]
      have := abs_sub (a - p) (b - q)
      linarith
    refine ⟨fun i hi => ?_, ?_⟩
    · obtain ⟨a1, a2, a3⟩ := h i (by omega)
      obtain ⟨b1, b2, b3⟩ := h (i + 1) hi
      rw [ex]
      exact ⟨two b1 a1 rfl, two b2 a2 rfl, two b3 a3 rfl⟩
    · obtain ⟨a1, a2, a3⟩ := h 0 (by omega)
      change |(x (σ 0)).x - (c (n - 1)).x| ≤ _ at a1
      change |(x (σ 0)).y - (c (n - 1)).y| ≤ _ at a2
      change |(x (σ 0)).z - (c (n - 1)).z| ≤ _ at a3
      rw [ex, abs_sub_comm, abs_sub_comm (c (n - 1)).y, abs_sub_comm (c (n - 1)).z]
      exact ⟨by linarith, by linarith, by linarith⟩

theorem Near.mk' {Z : Type} {V : ℝ → Z → Prop} {S : Set Z} {f f0 : Z → ℝ} {B D : ℝ} (hD : 0 ≤ D) (hB : ∀ z ∈ S, |f0 z| ≤ B) (h : ∀ u z, z ∈ S → V u z → |f z - f0 z| ≤ D * u) :
    Near V S (fun _ => f) f0 :=
  ⟨max B 0, D, 1, le_max_right _ _, hD, one_pos, le_rfl, fun z hz => (hB z hz).trans (le_max_left _ _), fun _ u _ _ _ z hz hv => h u z hz hv⟩

/-- chains of coordinates of bounded size -/
theorem Linked.links {S : Set ChainSys} {σ : Arr Nat} (hi : IsIndex n σ) (hn : 1 ≤ n) {R D : ℝ} (hD : 0 ≤ D) {V : ℝ → ChainSys → Prop} {x c : ChainSys → Arr (V3 ℝ)}
    (hR : ∀ s ∈ S, ∀ k, k < n → |(x s k).x| ≤ R ∧ |(x s k).y| ≤ R ∧ |(x s k).z| ≤ R) (h : ∀ u s, s ∈ S → V u s → Linked n (D * u) (x s) (c s) σ) :
    Links n V S σ (fun _ => c) x := by
  have two : ∀ {a b : ℝ}, |a| ≤ R → |b| ≤ R → |a - b| ≤ R + R := fun h1 h2 => (abs_sub _ _).trans (add_le_add h1 h2)
  refine ⟨fun i hin => ?_, ?_⟩
  · have l1 := hi.lt (i + 1) hin
    have l2 := hi.lt i (by omega)
    exact ⟨.mk' hD (fun s hs => two (hR s hs _ l1).1 (hR s hs _ l2).1) fun u s hs hv => ((h u s hs hv).1 i hin).1,
      .mk' hD (fun s hs => two (hR s hs _ l1).2.1 (hR s hs _ l2).2.1) fun u s hs hv => ((h u s hs hv).1 i hin).2.1,
      .mk' hD (fun s hs => two (hR s hs _ l1).2.2 (hR s hs _ l2).2.2) fun u s hs hv => ((h u s hs hv).1 i hin).2.2⟩
  · have l := hi.lt 0 (by omega)
    exact ⟨.mk' hD (fun s hs => (hR s hs _ l).1) fun u s hs hv => (h u s hs hv).2.1, .mk' hD (fun s hs => (hR s hs _ l).2.1) fun u s hs hv => (h u s hs hv).2.2.1,
      .mk' hD (fun s hs => (hR s hs _ l).2.2) fun u s hs hv => (h u s hs hv).2.2.2⟩

/-- the potential energy computed along the chain -/
theorem chain_potential {W : Set (Conf n × Conf n)} (cpt : IsCompact W) (hsub : W ⊆ Prod.fst ⁻¹' free n) (hn : 2 ≤ n) {κ : ℝ} (hκ : 0 ≤ κ) : ∃ C u0 : ℝ, 0 ≤ C ∧ 0 < u0 ∧
    ∀ σ ∈ indices n, ∀ A u, Accurate A u → 0 ≤ u → u ≤ u0 → ∀ s : ChainSys, s.index = σ → s.P.num = n → (∀ k, k < n → s.P.mass k = m k) → (conf n s.P.pos, conf n s.P.vel) ∈ W →
      Tied A n (κ * u) s → |potentialChainR A 1 s.P s.view - potentialR .exact 1 s.P| ≤ C * u := by
  obtain ⟨R0, hR0⟩ := cpt.isBounded.exists_norm_le
  obtain ⟨R, hR⟩ : ∃ R, R = max R0 0 := ⟨_, rfl⟩
  have Rn : 0 ≤ R := by rw [hR]; exact le_max_right _ _
  have hRW : ∀ z ∈ W, ‖z‖ ≤ R := fun z hz => by rw [hR]; exact (hR0 z hz).trans (le_max_left _ _)
  refine finite_uniform (fun σ : Arr Nat => fun C u0 => ∀ A u, Accurate A u → 0 ≤ u → u ≤ u0 → ∀ s : ChainSys, s.index = σ → s.P.num = n → (∀ k, k < n → s.P.mass k = m k) →
      (conf n s.P.pos, conf n s.P.vel) ∈ W → Tied A n (κ * u) s → |potentialChainR A 1 s.P s.view - potentialR .exact 1 s.P| ≤ C * u)
    (fun σ C C' u u' hC hu h A v hA h0 hv s e1 e2 e3 e4 e5 => (h A v hA h0 (hv.trans hu) s e1 e2 e3 e4 e5).trans (mul_le_mul_of_nonneg_right hC h0)) (indices n) fun σ hσ => ?_
  have hi := indices_isIndex hσ
  obtain ⟨S, hS⟩ : ∃ S : Set ChainSys, S = {s | s.index = σ ∧ s.P.num = n ∧ (∀ k, k < n → s.P.mass k = m k) ∧ (conf n s.P.pos, conf n s.P.vel) ∈ W} := ⟨_, rfl⟩
  have inS : ∀ s ∈ S, s.index = σ ∧ s.P.num = n ∧ (∀ k, k < n → s.P.mass k = m k) ∧ (conf n s.P.pos, conf n s.P.vel) ∈ W := fun s hs => by rw [hS] at hs; exact hs
  have bp : ∀ s ∈ S, Bdd n R s.P.pos := fun s hs k hk => coord_le _ k hk ((norm_fst_le (conf n s.P.pos, conf n s.P.vel)).trans (hRW _ (inS s hs).2.2.2))
  have bv : ∀ s ∈ S, Bdd n R s.P.vel := fun s hs k hk => coord_le _ k hk ((norm_snd_le (conf n s.P.pos, conf n s.P.vel)).trans (hRW _ (inS s hs).2.2.2))
  have hD : 0 ≤ 2 * κ + 2 * R := by positivity
  obtain ⟨V, hV⟩ : ∃ V : ℝ → ChainSys → Prop, V = fun u s => Linked n ((2 * κ + 2 * R) * u) s.P.pos s.cpos σ ∧ Linked n ((2 * κ + 2 * R) * u) s.P.vel s.cvel σ := ⟨_, rfl⟩
  have C : NearC n V S σ (fun _ s => { s with time := 0 }) (fun s => Simple.init 0 s.P) :=
    { num := fun _ s hs => (inS s hs).2.1
      num0 := fun s hs => (inS s hs).2.1
      index := fun _ s hs => (inS s hs).1
      mass := fun k hk => .fixed (fun s : ChainSys => s.P.mass k) (B := |m k|) fun s hs => by rw [(inS s hs).2.2.1 k hk]
      pos := NearA.fixed (R := R) bp
      vel := NearA.fixed (R := R) bv
      cpos := Linked.links hi (by omega) hD bp fun u s _ hv => by rw [hV] at hv; exact hv.1
      cvel := Linked.links hi (by omega) hD bv fun u s _ hv => by rw [hV] at hv; exact hv.2
      time := .fixed (fun _ => (0:ℝ)) (B := 0) fun _ _ => by rw [abs_zero] }
  have ap : Apart n S (fun s => (Simple.init 0 s.P).P) := fun i j hij hj => by
    obtain ⟨b, hb, k⟩ := (near_compact (m := m) cpt hsub).2 i j hij hj
    exact ⟨b, hb, fun s hs => k s.P ⟨(inS s hs).2.1, (inS s hs).2.2.1, (inS s hs).2.2.2⟩⟩
  obtain ⟨_, C', u0, _, c0, p0, _, _, key⟩ := C.potential hn hi ap 1
  refine ⟨C', min u0 (1 / 2), c0, lt_min p0 (by norm_num), fun A u hA h0 hu s e1 e2 e3 e4 T => ?_⟩
  have hs : s ∈ S := by rw [hS]; exact ⟨e1, e2, e3, e4⟩
  have hu2 := hu.trans (min_le_right _ _)
  have v : V u s := by
    obtain ⟨_, _, T1, T2⟩ := T
    rw [e1] at T1 T2
    rw [hV]
    exact ⟨tie_links (by omega) hA h0 hu2 hκ Rn (fun i h => bp s hs _ (hi.lt i h)) T1, tie_links (by omega) hA h0 hu2 hκ Rn (fun i h => bv s hs _ (hi.lt i h)) T2⟩
  exact key A u hA h0 (hu.trans (min_le_left _ _)) s hs v

/-- Energies computed of chain systems near a motion. -/
theorem chain_energies {x v : ℝ → Nat → V3 ℝ} {t0 t1 : ℝ} (M : NewtonMotion n m x v t0 t1) (hn : 2 ≤ n) {κ : ℝ} (hκ : 0 ≤ κ) :
    ∃ B C ρ : ℝ, 0 ≤ B ∧ 0 ≤ C ∧ 0 < ρ ∧ ∀ t ∈ Set.Icc t0 t1, ∀ A u, Accurate A u → 0 ≤ u → u ≤ ρ → ∀ ε, 0 ≤ ε → ε ≤ ρ → ∀ s : ChainSys, s.index ∈ indices n →
      Tied A n (κ * u) s → WithinOf n m x v t ε s.P →
      NearE B C u (kinC n m (conf n (v t))) (potC n m (conf n (x t))) ε (kineticR A s.P) (potentialChainR A 1 s.P s.view) := by
  obtain ⟨B, C, ρ, hB, hC, hρ, _, H⟩ := energies_near M
  obtain ⟨_, _, _, _, _, Hm, _, _⟩ := motion_tube M
  have mem : ∀ t ∈ Set.Icc 0 (t1 - t0), t0 + t ∈ Set.Icc t0 t1 := fun t ht => ⟨by linarith [ht.1], by linarith [ht.2]⟩
  obtain ⟨y, hy⟩ : ∃ y : ℝ → Conf n × Conf n, y = fun t => (conf n (x (t0 + t)), conf n (v (t0 + t))) := ⟨_, rfl⟩
  have hfree : ∀ t ∈ Set.Icc 0 (t1 - t0), y t ∈ (Prod.fst ⁻¹' free n : Set (Conf n × Conf n)) := by
    intro t ht i j hij h
    rw [hy] at h
    exact M.apart _ (mem t ht) i j i.2 j.2 (fun e => hij (Fin.ext e)) (congrArg ve h)
  have cy : ContinuousOn y (Set.Icc 0 (t1 - t0)) := by
    rw [hy]
    exact ContinuousOn.prodMk (fun t ht => (Hm.dq t ht).continuousWithinAt) (fun t ht => (Hm.dv t ht).continuousWithinAt)
  have hU : IsOpen (Prod.fst ⁻¹' free n : Set (Conf n × Conf n)) := (free_open n).preimage continuous_fst
  have hK : IsCompact (y '' Set.Icc 0 (t1 - t0)) := isCompact_Icc.image_of_continuousOn cy
  obtain ⟨r, p, sub⟩ := hK.exists_cthickening_subset_open hU (by rintro _ ⟨t, ht, rfl⟩; exact hfree t ht)
  obtain ⟨C', u0, hC', hu0, key⟩ := chain_potential (m := m) (hK.cthickening (r := r)) sub hn hκ
  refine ⟨B, C + C', min ρ (min r u0), hB, by positivity, lt_min hρ (lt_min p hu0), fun t ht A u hA hu hle ε he hele s hs T w => ?_⟩
  have q1 : min ρ (min r u0) ≤ ρ := min_le_left _ _
  have q2 : min ρ (min r u0) ≤ r := (min_le_right _ _).trans (min_le_left _ _)
  have q3 : min ρ (min r u0) ≤ u0 := (min_le_right _ _).trans (min_le_right _ _)
  obtain ⟨b1, b2, g⟩ := H t ht
  obtain ⟨g1, _⟩ := g A u hA hu (hle.trans q1) ε s.P he (hele.trans q1) w
  obtain ⟨_, g2⟩ := g .exact 0 accurate_exact le_rfl hρ.le ε s.P he (hele.trans q1) w
  rw [add_zero] at g2
  have mt : t - t0 ∈ Set.Icc 0 (t1 - t0) := ⟨by linarith [ht.1], by linarith [ht.2]⟩
  have yt : y (t - t0) = (conf n (x t), conf n (v t)) := by rw [hy]; simp
  have d := point_within he w
  rw [← yt] at d
  have g3 := key s.index hs A u hA hu (hle.trans q3) s rfl w.num w.mass
    (Metric.mem_cthickening_of_dist_le _ (y (t - t0)) _ _ ⟨_, mt, rfl⟩ (by rw [dist_eq_norm]; exact d.trans (hele.trans q2))) T
  have n1 : 0 ≤ C' * (ε + u) := by positivity
  have n2 : 0 ≤ C * u := by positivity
  have n3 : 0 ≤ C' * ε := by positivity
  have ex : (C + C') * (ε + u) = C * (ε + u) + C' * (ε + u) := by ring
  refine ⟨b1, b2, by rw [ex]; linarith, ?_⟩
  have e : potentialChainR A 1 s.P s.view + potC n m (conf n (x t)) =
      (potentialChainR A 1 s.P s.view - potentialR .exact 1 s.P) + (potentialR .exact 1 s.P + potC n m (conf n (x t))) := by ring
  rw [e]
  have := abs_add_le (potentialChainR A 1 s.P s.view - potentialR .exact 1 s.P) (potentialR .exact 1 s.P + potC n m (conf n (x t)))
  linarith [show (C + C') * (ε + u) = C * ε + C * u + C' * ε + C' * u by ring]

/-! ### along a run -/

/-- The coordinates of a new system are those of its chain. -/
theorem chain_tied {x v : ℝ → Nat → V3 ℝ} {t0 : ℝ} (hn : 2 ≤ n) : ∃ κ ρ : ℝ, 0 ≤ κ ∧ 0 < ρ ∧ ∀ A u, Accurate A u → 0 ≤ u → u ≤ ρ → ∀ e P, 0 ≤ e → e ≤ ρ →
    WithinOf n m x v t0 e P → ∀ idx, IndexOfR A P idx → Tied A n (κ * u) (initC A t0 P idx) ∧ idx ∈ indices n := by
  obtain ⟨z0, hz0⟩ : ∃ z0 : Conf n × Conf n, z0 = (conf n (x t0), conf n (v t0)) := ⟨_, rfl⟩
  obtain ⟨κ, v1, hκ, hv1, close⟩ := chain_close n (by omega) (‖z0‖ + 1)
  refine ⟨κ, min 1 v1, hκ, lt_min one_pos hv1, fun A u hA hu hle e P he hele w idx hidx => ?_⟩
  have hi : idx ∈ indices n := by have := hidx.mem; rwa [w.num] at this
  have hii := indices_isIndex hi
  have d := point_within he w
  rw [← hz0] at d
  have st0 : ‖(conf n P.pos, conf n P.vel)‖ ≤ ‖z0‖ + 1 := by
    have := norm_add_le z0 ((conf n P.pos, conf n P.vel) - z0)
    rw [add_sub_cancel] at this
    linarith [hele.trans (min_le_left _ _)]
  have cc : ∀ z : Arr (V3 ℝ), ‖conf n z‖ ≤ ‖z0‖ + 1 → Close n (κ * u) z (toChainR A n z (fun _ => 0) idx) idx := fun z hz =>
    close A u hA hu (hle.trans (min_le_right _ _)) idx hii z (fun k hk => coord_le z k hk hz)
  refine ⟨⟨w.num, hii, .inr ?_, .inr ?_⟩, hi⟩
  · show Close n (κ * u) P.pos (toChainR A P.num P.pos (fun _ => 0) idx) idx
    rw [w.num]
    exact cc _ ((norm_fst_le _).trans st0)
  · show Close n (κ * u) P.vel (toChainR A P.num P.vel (fun _ => 0) idx) idx
    rw [w.num]
    exact cc _ ((norm_snd_le _).trans st0)

theorem StepsTo.tied {A : Arith} {stages : List Stage} {h δ : ℝ} {s s' : ChainSys} (hn : 1 ≤ n) (st : StepsTo A stages h s s') (T : Tied A n δ s) (hi : s.index ∈ indices n) :
    Tied A n δ s' ∧ s'.index ∈ indices n := by
  obtain ⟨τ, hτ, rfl⟩ := st
  have b := T.step hn h stages
  have hτi : τ ∈ indices n := by
    have := hτ.mem
    rwa [b.num] at this
  refine ⟨b.post hn (indices_isIndex hτi), ?_⟩
  unfold postIterC
  split_ifs
  · exact hτi
  · rw [(stepC_keeps A h stages s).2.2]; exact hi

theorem runsC_tied {A : Arith} {stages : List Stage} {δ : ℝ} {hs : List ℝ} {s s' : ChainSys} (hn : 1 ≤ n) (r : Runs (StepsTo A stages) hs s s') :
    Tied A n δ s → s.index ∈ indices n → Tied A n δ s' ∧ s'.index ∈ indices n := by
  induction r with
  | nil s => exact fun T h => ⟨T, h⟩
  | cons e _ ih => exact fun T h => ih (e.tied hn T h).1 (e.tied hn T h).2

theorem stageAR_bindE (A : Arith) (G : ℝ) (type : ReguType) (h : ℝ) (c : Stage) (s : ARSys) : (stageAR A G type h c s).R.bindE = s.R.bindE := by
  cases c with
  | drift c => exact (posTimeR_keeps A type _ (reguPart s)).2
  | kick c => exact kickAR_bindE A G type _ s

theorem stepAR_bindE (A : Arith) (G : ℝ) (type : ReguType) (h : ℝ) (stages : List Stage) : ∀ s : ARSys, (stepAR A G type stages h s).R.bindE = s.R.bindE := by
  induction stages with
  | nil => exact fun _ => rfl
  | cons c l ih => exact fun s => (ih _).trans (stageAR_bindE A G type h c s)

theorem postIterAR_bindE (A : Arith) (τ : Arr Nat) (s : ARSys) : (postIterAR A τ s).R.bindE = s.R.bindE := by
  unfold postIterAR
  split_ifs <;> rfl

/-- the binding energy that an ARchain system keeps is the one of the start -/
theorem runsAR_tied {A : Arith} {type : ReguType} {stages : List Stage} {δ t2 : ℝ} {hs : List ℝ} {s s' : ARSys} (hn : 1 ≤ n)
    (r : Runs (fun h a b => a.time ≤ t2 ∧ StepsToAR A 1 type stages h a b) hs s s') : Tied A n δ (chainPart s) → s.index ∈ indices n →
    Tied A n δ (chainPart s') ∧ s'.index ∈ indices n ∧ s'.R.bindE = s.R.bindE := by
  induction r with
  | nil s => exact fun T h => ⟨T, h, rfl⟩
  | cons e _ ih =>
    intro T h
    obtain ⟨a, b, _, τ, _, rfl⟩ := e.2.tied hn T h
    obtain ⟨c, d, f⟩ := ih a b
    exact ⟨c, d, f.trans ((postIterAR_bindE A τ _).trans (stepAR_bindE A 1 type _ stages _))⟩

/-! ### the property -/

/-- **C120, chain systems.** As in C116: the energy of the state that is reached, computed along the chain, is that of the start up to
`K (hm ^ p + δ + e + (N + 1) u)`, and so is, if the energy is not 0, the number that `EnergyErrWriter` writes, when it was called at the start. -/
theorem C120_chain {x v : ℝ → Nat → V3 ℝ} {t0 t1 : ℝ} (ht : t0 ≤ t1) (M : NewtonMotion n m x v t0 t1) (hn : 2 ≤ n) (p : Nat) (hp : 1 ≤ p) (stages : List Stage) :
    ∃ K ρ : ℝ, 0 ≤ K ∧ 0 < ρ ∧ ∀ A u, Accurate A u → 0 ≤ u → ∀ e P, 0 ≤ e → e ≤ ρ → WithinOf n m x v t0 e P →
      ∀ hm δ, 0 ≤ hm → hm ≤ ρ → 0 ≤ δ → δ ≤ ρ →
      (∀ w : List Bool, 1 ≤ w.length → w.length ≤ p → |(deviation stages w : ℝ)| * hm ^ (w.length - 1) ≤ δ) →
      ∀ hs : List ℝ, (∀ h ∈ hs, 0 ≤ h ∧ h ≤ hm) → t0 + hs.sum ≤ t1 → (hs.length + 1) * u ≤ ρ →
      ∀ idx, IndexOfR A P idx → ∀ s, Runs (StepsTo A stages) hs (initC A t0 P idx) s →
        |totalEnergyC A 1 s.P s.view - energyOf n m (x t0) (v t0)| ≤ K * (hm ^ p + δ + e + (hs.length + 1) * u) ∧
        (energyOf n m (x t0) (v t0) ≠ 0 →
          (energyWriteC A 1 (energyWriteC A 1 none (initC A t0 P idx)).1 s).2 ≤ K * (hm ^ p + δ + e + (hs.length + 1) * u)) := by
  obtain ⟨K, ρ, hK, hρ, H⟩ := C116_rounded ht M hn p hp stages
  obtain ⟨κ, ρ1, hκ, hρ1, H1⟩ := chain_tied (m := m) (x := x) (v := v) (t0 := t0) hn
  obtain ⟨B, C, ρ2, hB, hC, hρ2, H2⟩ := chain_energies M hn hκ
  obtain ⟨E, hEdef⟩ : ∃ E, E = energyOf n m (x t0) (v t0) := ⟨_, rfl⟩
  obtain ⟨L, ρ3, hL, hρ3, H3⟩ : ∃ K2 ρ2 : ℝ, 0 ≤ K2 ∧ 0 < ρ2 ∧ (E ≠ 0 → ∀ A u, Accurate A u → 0 ≤ u → u ≤ ρ2 → ∀ ε0 ε, 0 ≤ ε0 → ε0 ≤ ρ2 → 0 ≤ ε → ε ≤ ρ2 →
      ∀ k0 q0 k q T0 V0 T V, k0 - q0 = E → k - q = E → NearE B C u k0 q0 ε0 T0 V0 → NearE B C u k q ε T V → energyErrorOf A T V (A.add V0 T0) ≤ K2 * (ε0 + ε + u)) := by
    by_cases hE : E = 0
    · exact ⟨0, 1, le_rfl, one_pos, fun h => absurd hE h⟩
    · obtain ⟨K2, ρ2, a, b, c⟩ := written_of hB hC hE
      exact ⟨K2, ρ2, a, b, fun _ => c⟩
  obtain ⟨J, hJ⟩ : ∃ J, J = 2 * C + (2 * B + 4 * C) := ⟨_, rfl⟩
  have hJ0 : 0 ≤ J := by rw [hJ]; positivity
  obtain ⟨σ, hσ⟩ : ∃ σ, σ = min (min ρ 1) (min ρ1 (min ρ2 ρ3)) := ⟨_, rfl⟩
  have σ0 : 0 < σ := by rw [hσ]; exact lt_min (lt_min hρ one_pos) (lt_min hρ1 (lt_min hρ2 hρ3))
  have s1 : σ ≤ ρ := by rw [hσ]; exact (min_le_left _ _).trans (min_le_left _ _)
  have s2 : σ ≤ 1 := by rw [hσ]; exact (min_le_left _ _).trans (min_le_right _ _)
  have s3 : σ ≤ ρ1 := by rw [hσ]; exact (min_le_right _ _).trans (min_le_left _ _)
  have s4 : σ ≤ ρ2 := by rw [hσ]; exact (min_le_right _ _).trans ((min_le_right _ _).trans (min_le_left _ _))
  have s5 : σ ≤ ρ3 := by rw [hσ]; exact (min_le_right _ _).trans ((min_le_right _ _).trans (min_le_right _ _))
  refine ⟨J * (K + 1) + L * (K + 1), min σ (σ / (4 * K + 1)), by positivity, lt_min σ0 (by positivity),
    fun A u hA hu e P he hele w hm δ hm0 hmle hδ hδle dev hs hhs hsum hN idx hidx s Rn => ?_⟩
  have q1 : min σ (σ / (4 * K + 1)) ≤ σ := min_le_left _ _
  obtain ⟨z, hz⟩ : ∃ z, z = hm ^ p + δ + e + (hs.length + 1) * u := ⟨_, rfl⟩
  obtain ⟨z0, euz, uσ, εσ⟩ := sizes hz hp hK σ0.le s2 hm0 hmle hδ hδle he hele hu hN
  have Nu : hs.length * u ≤ (hs.length + 1) * u := by linarith [show ((hs.length : ℝ) + 1) * u = hs.length * u + u by ring]
  have g := (H A u hA hu (uσ.trans s1) e P he (hele.trans (q1.trans s1)) w hm δ hm0 (hmle.trans (q1.trans s1)) hδ (hδle.trans (q1.trans s1)) dev hs hhs
    hsum (Nu.trans (hN.trans (q1.trans s1))) idx hidx s Rn).2
  have g := within_mono g (mul_le_mul_of_nonneg_left (show hm ^ p + δ + e + hs.length * u ≤ z by rw [hz]; linarith) hK)
  rw [← hz, ← hEdef]
  have ε0 : 0 ≤ K * z := by positivity
  have hs0 : 0 ≤ hs.sum := List.sum_nonneg fun h hh => (hhs h hh).1
  have mt : t0 + hs.sum ∈ Set.Icc t0 t1 := ⟨by linarith, hsum⟩
  have h0 : t0 ∈ Set.Icc t0 t1 := ⟨le_rfl, ht⟩
  obtain ⟨T0, i0⟩ := H1 A u hA hu (uσ.trans s3) e P he (hele.trans (q1.trans s3)) w idx hidx
  obtain ⟨T1, i1⟩ := runsC_tied (by omega) Rn T0 i0
  have n0 := H2 t0 h0 A u hA hu (uσ.trans s4) e he (hele.trans (q1.trans s4)) (initC A t0 P idx) i0 T0 w
  have n1 := H2 _ mt A u hA hu (uσ.trans s4) _ ε0 (εσ.trans s4) s i1 T1 g
  have E0 := energy_const M h0
  have E1 := energy_const M mt
  rw [← hEdef] at E0 E1
  have f1 := n1.total hA hB hC hu (uσ.trans s2) ε0 (εσ.trans s2)
  rw [E1, ← hJ] at f1
  have l1 : K * z + u ≤ (K + 1) * z := by linarith
  have l2 : e + K * z + u ≤ (K + 1) * z := by linarith
  have p1 := mul_le_mul_of_nonneg_left l1 hJ0
  have p2 := mul_le_mul_of_nonneg_left l2 hL
  have p3 : 0 ≤ J * ((K + 1) * z) := by positivity
  have p4 : 0 ≤ L * ((K + 1) * z) := by positivity
  have ex : (J * (K + 1) + L * (K + 1)) * z = J * ((K + 1) * z) + L * ((K + 1) * z) := by ring
  rw [ex]
  refine ⟨?_, fun hE => ?_⟩
  · unfold totalEnergyC
    linarith
  · have f2 := H3 hE A u hA hu (uσ.trans s5) e _ he (hele.trans (q1.trans s5)) ε0 (εσ.trans s5) _ _ _ _ _ _ _ _ E0 E1 n0 n1
    have e : (energyWriteC A 1 (energyWriteC A 1 none (initC A t0 P idx)).1 s).2 = energyErrorOf A (kineticR A s.P) (potentialChainR A 1 s.P s.view)
        (A.add (potentialChainR A 1 (initC A t0 P idx).P (initC A t0 P idx).view) (kineticR A (initC A t0 P idx).P)) := rfl
    rw [e]
    linarith

/-- **C120, ARchain systems.** As in C118: the energy of the state that is reached, computed along the chain, is that of the start up to
`K (hm ^ p + δ + e + (N + 1) u)`, and the number that `EnergyErrWriter` writes, the logarithm of a ratio of energies, is 0 up to as much. -/
theorem C120_archain {x v : ℝ → Nat → V3 ℝ} {t0 t1 t2 : ℝ} (h02 : t0 ≤ t2) (h21 : t2 < t1) (M : NewtonMotion n m x v t0 t1)
    (hn : 2 ≤ n) (hmass : ∀ k, k < n → 0 < m k) (p : Nat) (hp : 1 ≤ p) (stages : List Stage) (type : ReguType) (hty : type ∈ [ReguType.logH, .ttl]) :
    ∃ K ρ : ℝ, 0 ≤ K ∧ 0 < ρ ∧ ∀ A u, Accurate A u → 0 ≤ u → ∀ e P, 0 ≤ e → e ≤ ρ → WithinOf n m x v t0 e P →
      ∀ hm δ, 0 ≤ hm → hm ≤ ρ → 0 ≤ δ → δ ≤ ρ →
      (∀ w : List Bool, 1 ≤ w.length → w.length ≤ p → |(deviation stages w : ℝ)| * hm ^ (w.length - 1) ≤ δ) →
      ∀ hs : List ℝ, (∀ h ∈ hs, 0 ≤ h ∧ h ≤ hm) → (hs.length + 1) * u ≤ ρ →
      ∀ idx, IndexOfR A P idx → ∀ s, Runs (fun h a b => a.time ≤ t2 ∧ StepsToAR A 1 type stages h a b) hs (initAR A 1 type t0 P idx) s →
        t0 ≤ s.time → s.time ≤ t2 →
        |totalEnergyC A 1 s.P s.view - energyOf n m (x t0) (v t0)| ≤ K * (hm ^ p + δ + e + (hs.length + 1) * u) ∧
        |energyLogAR A 1 s| ≤ K * (hm ^ p + δ + e + (hs.length + 1) * u) := by
  obtain ⟨K, _, ρ, _, hK, _, hρ, _, H⟩ := C118_rounded h02 h21 M hn hmass p hp stages type hty
  obtain ⟨κ, ρ1, hκ, hρ1, H1⟩ := chain_tied (m := m) (x := x) (v := v) (t0 := t0) hn
  obtain ⟨B, C, ρ2, hB, hC, hρ2, H2⟩ := chain_energies M hn hκ
  obtain ⟨c, hc, low⟩ := pot_away M hn hmass
  obtain ⟨E, hEdef⟩ : ∃ E, E = energyOf n m (x t0) (v t0) := ⟨_, rfl⟩
  obtain ⟨L, ρ3, hL, hρ3, H3⟩ := log_of (E := E) hB hC hc
  obtain ⟨J, hJ⟩ : ∃ J, J = 2 * C + (2 * B + 4 * C) := ⟨_, rfl⟩
  have hJ0 : 0 ≤ J := by rw [hJ]; positivity
  obtain ⟨σ, hσ⟩ : ∃ σ, σ = min (min ρ 1) (min ρ1 (min ρ2 ρ3)) := ⟨_, rfl⟩
  have σ0 : 0 < σ := by rw [hσ]; exact lt_min (lt_min hρ one_pos) (lt_min hρ1 (lt_min hρ2 hρ3))
  have s1 : σ ≤ ρ := by rw [hσ]; exact (min_le_left _ _).trans (min_le_left _ _)
  have s2 : σ ≤ 1 := by rw [hσ]; exact (min_le_left _ _).trans (min_le_right _ _)
  have s3 : σ ≤ ρ1 := by rw [hσ]; exact (min_le_right _ _).trans (min_le_left _ _)
  have s4 : σ ≤ ρ2 := by rw [hσ]; exact (min_le_right _ _).trans ((min_le_right _ _).trans (min_le_left _ _))
  have s5 : σ ≤ ρ3 := by rw [hσ]; exact (min_le_right _ _).trans ((min_le_right _ _).trans (min_le_right _ _))
  refine ⟨J * (K + 1) + L * (K + 1), min σ (σ / (4 * K + 1)), by positivity, lt_min σ0 (by positivity),
    fun A u hA hu e P he hele w hm δ hm0 hmle hδ hδle dev hs hhs hN idx hidx s Rn ts1 ts2 => ?_⟩
  have q1 : min σ (σ / (4 * K + 1)) ≤ σ := min_le_left _ _
  obtain ⟨z, hz⟩ : ∃ z, z = hm ^ p + δ + e + (hs.length + 1) * u := ⟨_, rfl⟩
  obtain ⟨z0, euz, uσ, εσ⟩ := sizes hz hp hK σ0.le s2 hm0 hmle hδ hδle he hele hu hN
  have g := (H A u hA hu e P he (hele.trans (q1.trans s1)) w hm δ hm0 (hmle.trans (q1.trans s1)) hδ (hδle.trans (q1.trans s1)) dev hs hhs
    (hN.trans (q1.trans s1)) idx hidx s Rn).2.2 ts1 ts2
  rw [← hz] at g
  rw [← hz, ← hEdef]
  have ε0 : 0 ≤ K * z := by positivity
  have mt : s.time ∈ Set.Icc t0 t1 := ⟨ts1, by linarith⟩
  have h0 : t0 ∈ Set.Icc t0 t1 := ⟨le_rfl, by linarith⟩
  obtain ⟨T0, i0⟩ := H1 A u hA hu (uσ.trans s3) e P he (hele.trans (q1.trans s3)) w idx hidx
  obtain ⟨T1, i1, bind⟩ := runsAR_tied (by omega) Rn (δ := κ * u) T0 i0
  have n0 := H2 t0 h0 A u hA hu (uσ.trans s4) e he (hele.trans (q1.trans s4)) (initC A t0 P idx) i0 T0 w
  have n1 := H2 _ mt A u hA hu (uσ.trans s4) _ ε0 (εσ.trans s4) (chainPart s) i1 T1 g
  have E0 := energy_const M h0
  have E1 := energy_const M mt
  rw [← hEdef] at E0 E1
  have f1 := n1.total hA hB hC hu (uσ.trans s2) ε0 (εσ.trans s2)
  rw [E1, ← hJ] at f1
  have f1' : |totalEnergyC A 1 s.P s.view - E| ≤ J * (K * z + u) := f1
  have l1 : K * z + u ≤ (K + 1) * z := by linarith
  have l2 : e + K * z + u ≤ (K + 1) * z := by linarith
  have p1 := mul_le_mul_of_nonneg_left l1 hJ0
  have p2 := mul_le_mul_of_nonneg_left l2 hL
  have p3 : 0 ≤ J * ((K + 1) * z) := by positivity
  have p4 : 0 ≤ L * ((K + 1) * z) := by positivity
  have ex : (J * (K + 1) + L * (K + 1)) * z = J * ((K + 1) * z) + L * ((K + 1) * z) := by ring
  rw [ex]
  refine ⟨by linarith, ?_⟩
  have f2 := H3 A u hA hu (uσ.trans s5) e _ he (hele.trans (q1.trans s5)) ε0 (εσ.trans s5) _ _ _ _ _ _ _ _ E0 E1 (low _ mt) n0 n1
  have eq : energyLogAR A 1 s = energyLogOf A (kineticR A s.P) (potentialChainR A 1 s.P s.view)
      (-A.add (potentialChainR A 1 (initC A t0 P idx).P (initC A t0 P idx).view) (kineticR A (initC A t0 P idx).P)) := by
    unfold energyLogAR
    rw [bind]
    rfl
  rw [eq]
  exact f2.trans (by linarith)

/-- Non-vacuity: two bodies on a circle, rounding to 53 bits; a thousand steps of `1e-3` of a chain system, all the hypotheses of which hold for any `ρ ≥ 2e-3`. -/
example (t0 : ℝ) (rnd : ℝ → ℝ) (N : Nearest 53 rnd) (ρ : ℝ) (hρ : 2e-3 ≤ ρ) : NewtonMotion 2 (fun _ => 1 / 2) circlePos circleVel t0 (t0 + 1) ∧
    WithinOf 2 (fun _ => 1 / 2) circlePos circleVel t0 0 ⟨2, circlePos t0, circleVel t0, fun _ => 1 / 2⟩ ∧ Accurate (ieee rnd) (1 / 2 ^ 53) ∧
    (1e-3 : ℝ) ≤ ρ ∧ (((List.replicate 1000 (1e-3 : ℝ)).length : ℝ) + 1) * (1 / 2 ^ 53) ≤ ρ ∧
    (∀ w : List Bool, 1 ≤ w.length → w.length ≤ 4 → |(deviation symplectic4th w : ℝ)| * 1e-3 ^ (w.length - 1) ≤ 1e-14 * 1e-3 ^ 2) ∧
    ∃ idx s, IndexOfR (ieee rnd) ⟨2, circlePos t0, circleVel t0, fun _ => 1 / 2⟩ idx ∧
      Runs (StepsTo (ieee rnd) symplectic4th) (List.replicate 1000 (1e-3 : ℝ)) (initC (ieee rnd) t0 ⟨2, circlePos t0, circleVel t0, fun _ => 1 / 2⟩ idx) s := by
  obtain ⟨idx, h1⟩ := (C116_exists (ieee rnd)).1 ⟨2, circlePos t0, circleVel t0, fun _ => 1 / 2⟩ le_rfl
  obtain ⟨s, h2⟩ := (C116_exists (ieee rnd)).2 symplectic4th (List.replicate 1000 (1e-3 : ℝ)) (initC (ieee rnd) t0 ⟨2, circlePos t0, circleVel t0, fun _ => 1 / 2⟩ idx) le_rfl
  refine ⟨circle_motion t0 _, ⟨rfl, fun _ _ => rfl, fun _ _ => by simp [len, dot], fun _ _ => by simp [len, dot]⟩, C113_nearest (by norm_num) N,
    le_trans (by norm_num) hρ, ?_, fourth_dev (by norm_num) (by norm_num), idx, s, h1, h2⟩
  rw [List.length_replicate]; exact le_trans (by norm_num) hρ

end SpaceHub.Rounded
