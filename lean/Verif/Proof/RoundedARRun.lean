import Verif.Proof.RoundedAR

/-
Steps of an ARchain system in rounded arithmetic, near a motion.
-/

set_option autoImplicit false

namespace SpaceHub.Rounded
open SpaceHub V3 Force Core Integrator Spec Sys Props Converge

variable {n : Nat} {m : Nat → ℝ}

/-- the regularised system that the chain stands for -/
noncomputable def plainAR (s : ARSys) : ReguSys :=
  { P := (plainOf (chainPart s)).P, time := s.time, aux := (plainOf (chainPart s)).aux, R := s.R, inc := (plainOf (chainPart s)).inc, sync := (plainOf (chainPart s)).sync }

theorem simplePart_plain (s : ARSys) : simplePart (plainAR s) = plainOf (chainPart s) := rfl

section
variable {Z Z' : Type} {V : ℝ → Z → Prop} {S : Set Z} {S' : Set Z'} {σ : Arr Nat}

/-! ### other parameters -/

theorem Near.comap (g : Z' → Z) (hg : ∀ z ∈ S', g z ∈ S) {F : Arith → Z → ℝ} {F0 : Z → ℝ} (h : Near V S F F0) :
    Near (fun u z => V u (g z)) S' (fun A z => F A (g z)) (fun z => F0 (g z)) := by
  obtain ⟨B, C, u0, h1, h2, h3, h4, h5, h6⟩ := h
  exact ⟨B, C, u0, h1, h2, h3, h4, fun z hz => h5 _ (hg z hz), fun A u hA hu hu0 z hz hv => h6 A u hA hu hu0 _ (hg z hz) hv⟩

theorem NearV.comap (g : Z' → Z) (hg : ∀ z ∈ S', g z ∈ S) {F : Arith → Z → V3 ℝ} {F0 : Z → V3 ℝ} (h : NearV V S F F0) :
    NearV (fun u z => V u (g z)) S' (fun A z => F A (g z)) (fun z => F0 (g z)) := ⟨h.1.comap g hg, h.2.1.comap g hg, h.2.2.comap g hg⟩

theorem NearC.comap (g : Z' → Z) (hg : ∀ z ∈ S', g z ∈ S) {F : Arith → Z → ChainSys} {F0 : Z → Simple} (h : NearC n V S σ F F0) :
    NearC n (fun u z => V u (g z)) S' σ (fun A z => F A (g z)) (fun z => F0 (g z)) where
  num A z hz := h.num A _ (hg z hz)
  num0 z hz := h.num0 _ (hg z hz)
  index A z hz := h.index A _ (hg z hz)
  mass k hk := (h.mass k hk).comap g hg
  pos k hk := (h.pos k hk).comap g hg
  vel k hk := (h.vel k hk).comap g hg
  cpos := ⟨fun i hi => (h.cpos.link i hi).comap g hg, h.cpos.base.comap g hg⟩
  cvel := ⟨fun i hi => (h.cvel.link i hi).comap g hg, h.cvel.base.comap g hg⟩
  time := h.time.comap g hg

/-! ### from states to points -/

theorem NearAR.plain {F : Arith → Z → ARSys} {F0 : Z → ReguSys} {type : ReguType} (hn : 2 ≤ n) (hi : IsIndex n σ) (h : NearAR n type V S σ F F0) :
    NearP n V S (fun A z => (plainAR (F A z)).P) (fun z => (F0 z).P) where
  num A z hz := h.C.num A z hz
  num0 z hz := h.C.num0 z hz
  mass k hk := h.C.mass k hk
  pos := (h.C.cpos.cart_exact (by omega) hi fun _ _ _ => 0).congr (fun A z hz => by
    show toCartR .exact (F A z).P.num (F A z).cpos _ (F A z).index = _
    rw [show (F A z).P.num = n from h.C.num A z hz, show (F A z).index = σ from h.C.index A z hz]
    rfl) fun _ _ => rfl
  vel := (h.C.cvel.cart_exact (by omega) hi fun _ _ _ => 0).congr (fun A z hz => by
    show toCartR .exact (F A z).P.num (F A z).cvel _ (F A z).index = _
    rw [show (F A z).P.num = n from h.C.num A z hz, show (F A z).index = σ from h.C.index A z hz]
    rfl) fun _ _ => rfl

theorem NearAR.point {F : Arith → Z → ARSys} {F0 : Z → ReguSys} {type : ReguType} (hn : 2 ≤ n) (hi : IsIndex n σ) (hty : type ≠ .none) (h : NearAR n type V S σ F F0) :
    ∃ C u0 : ℝ, 0 ≤ C ∧ 0 < u0 ∧ ∀ A u, Accurate A u → 0 ≤ u → u ≤ u0 → ∀ z ∈ S, V u z → ‖pointR n type (plainAR (F A z)) - pointR n type (F0 z)‖ ≤ C * u := by
  have hP := h.plain hn hi
  have fb : Near V S (fun A z => bindOf type (plainAR (F A z))) (fun z => bindOf type (F0 z)) := by
    by_cases h1 : type = .logH
    · exact (h.bindE h1).congr (fun A z _ => by rw [h1]; rfl) fun z _ => by rw [h1]; rfl
    · have h2 : type = .ttl := by cases type <;> first | rfl | contradiction
      exact ((h.omega h2).plus hP.kinetic'.neg).congr (fun A z _ => by rw [h2]; rfl) fun z _ => by rw [h2]; rfl
  obtain ⟨C1, u1, hC1, p1, k1⟩ := hP.pos.uniform n
  obtain ⟨C2, u2, hC2, p2, k2⟩ := hP.vel.uniform n
  obtain ⟨_, C3, u3, _, hC3, p3, _, _, k3⟩ := h.C.time
  obtain ⟨_, C4, u4, _, hC4, p4, _, _, k4⟩ := fb
  refine ⟨C1 + C2 + (C3 + C4), min (min u1 u2) (min u3 u4), by positivity, lt_min (lt_min p1 p2) (lt_min p3 p4), fun A u hA hu hle z hz hv => ?_⟩
  have l1 := (hle.trans (min_le_left _ _)).trans (min_le_left _ _)
  have l2 := (hle.trans (min_le_left _ _)).trans (min_le_right _ _)
  have l3 := (hle.trans (min_le_right _ _)).trans (min_le_left _ _)
  have l4 := (hle.trans (min_le_right _ _)).trans (min_le_right _ _)
  have w1 : C1 * u ≤ (C1 + C2 + (C3 + C4)) * u := mul_le_mul_of_nonneg_right (by linarith) hu
  have w2 : C2 * u ≤ (C1 + C2 + (C3 + C4)) * u := mul_le_mul_of_nonneg_right (by linarith) hu
  have w3 : C3 * u ≤ (C1 + C2 + (C3 + C4)) * u := mul_le_mul_of_nonneg_right (by linarith) hu
  have w4 : C4 * u ≤ (C1 + C2 + (C3 + C4)) * u := mul_le_mul_of_nonneg_right (by linarith) hu
  exact norm_prod_le_iff.2 ⟨(k3 A u hA hu l3 z hz hv).trans w3, norm_prod_le_iff.2 ⟨(le_coord _ _ (by positivity) (k1 A u hA hu l1 z hz hv)).trans w1,
    norm_prod_le_iff.2 ⟨(le_coord _ _ (by positivity) (k2 A u hA hu l2 z hz hv)).trans w2, (k4 A u hA hu l4 z hz hv).trans w4⟩⟩⟩

end

/-! ### one step -/

/-- steps from states near a motion whose chain has the index `σ` -/
def cnearAR (n : Nat) (σ : Arr Nat) (m : Nat → ℝ) (type : ReguType) (y : ℝ → Quad n) (T r ρ : ℝ) : Set (ℝ × ARSys) :=
  {z | z.2.index = σ ∧ (z.1, plainAR z.2) ∈ nearbyR n m type y T r ρ}

section
variable {type : ReguType} {y : ℝ → Quad n} {T r ρ κ : ℝ} {stages : List Stage} {W : Set (Quad n)} {σ τ : Arr Nat}

/-- the stored coordinates are close to those that the chain stands for -/
def Kept (n : Nat) (κ u : ℝ) (s : ChainSys) : Prop := Close n (κ * u) s.P.pos s.cpos s.index ∧ Close n (κ * u) s.P.vel s.cvel s.index

theorem cnearAR_start (hn : 2 ≤ n) (hσ : IsIndex n σ) (hty : type ≠ .none) (hκ : 0 ≤ κ) (hW : IsCompact W)
    (inW : ∀ t ∈ Set.Icc 0 T, ∀ z, ‖z - y t‖ ≤ r → z ∈ W) :
    NearAR n type (fun u z => Kept n κ u (chainPart z.2)) (cnearAR n σ m type y T r ρ) σ (fun _ z => z.2) (fun z => plainAR z.2) := by
  obtain ⟨R0, hR0⟩ := hW.isBounded.exists_norm_le
  obtain ⟨R1, hR1⟩ := hW.exists_bound_of_continuousOn (f := fun z : Quad n => z.2.2.2 + kinC n m z.2.2.1)
    (((continuous_snd.comp (continuous_snd.comp continuous_snd)).add
        ((kinC_smooth (d := 1) n m).continuous.comp (continuous_fst.comp (continuous_snd.comp continuous_snd)))).continuousOn)
  obtain ⟨S, hS⟩ : ∃ S, S = cnearAR n σ m type y T r ρ := ⟨_, rfl⟩
  have bd : ∀ z ∈ S, pointR n type (plainAR z.2) ∈ W := by
    rw [hS]
    rintro z ⟨_, h1, h2, h3, t, ht, h5⟩
    exact inW t ht _ h5
  have C := (cnear_start (n := n) hn hσ (m := m) (y := fun t => ((y t).2.1, (y t).2.2.1)) (T := T) (r := r) (ρ := ρ) (B := R0) (R := R0 + r) hκ (by
    rintro z ⟨_, h1, h2, h3, h4, t, ht, h5⟩
    have a1 : ‖y t‖ ≤ R0 := hR0 _ (inW t ht _ (by rw [sub_self, norm_zero]; exact (norm_nonneg _).trans h5))
    have a2 : ‖((y t).2.1, (y t).2.2.1)‖ ≤ R0 :=
      norm_prod_le_iff.2 ⟨((norm_fst_le (y t).2).trans (norm_snd_le (y t))).trans a1, (((norm_fst_le (y t).2.2).trans (norm_snd_le (y t).2)).trans (norm_snd_le (y t))).trans a1⟩
    have a3 := norm_add_le ((y t).2.1, (y t).2.2.1) (point n (plainOf z.2) - ((y t).2.1, (y t).2.2.1))
    rw [add_sub_cancel] at a3
    linarith)).comap (S' := S) (fun z : ℝ × ARSys => (z.1, chainPart z.2)) (by
    intro z hz
    have hb := hR0 _ (bd z hz)
    rw [hS] at hz
    obtain ⟨h0, h1, h2, h3, t, ht, h5⟩ := hz
    have h6 := norm_prod_le_iff.1 (norm_prod_le_iff.1 h5).2
    exact ⟨h0, h1, h2, h3, (norm_fst_le (pointR n type (plainAR z.2))).trans hb, t, ht, norm_prod_le_iff.2 ⟨h6.1, (norm_prod_le_iff.1 h6.2).1⟩⟩)
  rw [← hS]
  refine ⟨C, fun ht => .fixed (fun z : ℝ × ARSys => z.2.R.omega) (B := R1) fun z hz => ?_, fun ht => .fixed (fun z : ℝ × ARSys => z.2.R.bindE) (B := R0) fun z hz => ?_⟩
  · have h1 := hR1 _ (bd z hz)
    rw [hS] at hz
    rw [← posScale_point (m := m) hty hz.2.2.1 hz.2.2.2.1] at h1
    have h3 : posScale type (plainAR z.2) = z.2.R.omega := by rw [ht]; rfl
    rw [h3] at h1
    exact h1
  · have n1 : ‖(pointR n type (plainAR z.2)).2‖ ≤ R0 := (norm_snd_le _).trans (hR0 _ (bd z hz))
    have n2 : ‖(pointR n type (plainAR z.2)).2.2‖ ≤ R0 := (norm_snd_le _).trans n1
    have h1 : ‖(pointR n type (plainAR z.2)).2.2.2‖ ≤ R0 := (norm_snd_le _).trans n2
    have h3 : (pointR n type (plainAR z.2)).2.2.2 = z.2.R.bindE := by rw [ht]; rfl
    rw [h3] at h1
    exact h1

/-- What rounding does to one step and the `post_iter_process` after it. -/
theorem archain_step (hn : 2 ≤ n) (hm : ∀ k, k < n → 0 < m k) (hty : type ≠ .none) (hκ : 0 ≤ κ) (hW : IsCompact W) (hWU : W ⊆ safeQ n m)
    (inW : ∀ t ∈ Set.Icc 0 T, ∀ h ∈ Set.Icc 0 ρ, ∀ z, ‖z - y t‖ ≤ r → ∀ pre suf, stages = pre ++ suf → wstep (quadF n m) pre h z ∈ W)
    (hρ : 0 ≤ ρ) (hσ : IsIndex n σ) (hτ : IsIndex n τ) :
    ∃ C u0 : ℝ, 0 ≤ C ∧ 0 < u0 ∧ ∀ A u, Accurate A u → 0 ≤ u → u ≤ u0 → ∀ z ∈ cnearAR n σ m type y T r ρ, Kept n κ u (chainPart z.2) →
      ‖pointR n type (plainAR (postIterAR A τ (stepAR A 1 type stages z.1 z.2))) - wstep (quadF n m) stages z.1 (pointR n type (plainAR z.2))‖ ≤ C * u := by
  have start := cnearAR_start (m := m) (ρ := ρ) hn hσ hty hκ hW fun t ht z hz => inW t ht 0 ⟨le_rfl, hρ⟩ z hz [] stages rfl
  have hd := Near.fixed (V := fun u (z : ℝ × ARSys) => Kept n κ u (chainPart z.2)) (S := cnearAR n σ m type y T r ρ) (fun z : ℝ × ARSys => z.1) (B := ρ)
    fun z hz => by rw [abs_of_nonneg hz.2.1.1]; exact hz.2.1.2
  have safe := fun pre suf e => nearbyR_safe (T := T) (y := y) (r := r) (ρ := ρ) (type := type) (stages := stages) hn hm hty hW hWU inW pre suf e
  have fin := NearAR.step hn hσ 1 hty (d := fun z : ℝ × ARSys => z.1) hd stages (fun _ z => z.2) (fun z => plainAR z.2) start fun pre suf e => by
    obtain ⟨s1, ⟨c2, p2, s2⟩, c3, p3, s3⟩ := safe pre suf e
    refine ⟨fun i j hij hj => ?_, ⟨c2, p2, fun z hz => s2 (z.1, plainAR z.2) hz.2⟩, c3, p3, fun z hz => s3 (z.1, plainAR z.2) hz.2⟩
    obtain ⟨b, hb, k⟩ := s1 i j hij hj
    exact ⟨b, hb, fun z hz => k (z.1, plainAR z.2) hz.2⟩
  obtain ⟨υ, hυ, fin'⟩ := fin.post hn hσ hτ
  obtain ⟨C, u0, hC, hu0, key⟩ := fin'.point hn hυ hty
  refine ⟨C, u0, hC, hu0, fun A u hA hu hle z hz hk => ?_⟩
  rw [← stepR_point hty z.1 stages (plainAR z.2) hz.2.2.1 hz.2.2.2.1]
  exact key A u hA hu hle z hz hk

/-- the same, whatever the indices -/
theorem archain_steps (hn : 2 ≤ n) (hm : ∀ k, k < n → 0 < m k) (hty : type ≠ .none) (hκ : 0 ≤ κ) (hW : IsCompact W) (hWU : W ⊆ safeQ n m)
    (inW : ∀ t ∈ Set.Icc 0 T, ∀ h ∈ Set.Icc 0 ρ, ∀ z, ‖z - y t‖ ≤ r → ∀ pre suf, stages = pre ++ suf → wstep (quadF n m) pre h z ∈ W) (hρ : 0 ≤ ρ) :
    ∃ C u0 : ℝ, 0 ≤ C ∧ 0 < u0 ∧ ∀ σ ∈ indices n, ∀ τ ∈ indices n, ∀ A u, Accurate A u → 0 ≤ u → u ≤ u0 → ∀ z ∈ cnearAR n σ m type y T r ρ, Kept n κ u (chainPart z.2) →
      ‖pointR n type (plainAR (postIterAR A τ (stepAR A 1 type stages z.1 z.2))) - wstep (quadF n m) stages z.1 (pointR n type (plainAR z.2))‖ ≤ C * u := by
  obtain ⟨C, u0, a, b, h⟩ := finite_uniform (fun q : Arr Nat × Arr Nat => fun C u0 => ∀ A u, Accurate A u → 0 ≤ u → u ≤ u0 → ∀ z ∈ cnearAR n q.1 m type y T r ρ,
      Kept n κ u (chainPart z.2) →
      ‖pointR n type (plainAR (postIterAR A q.2 (stepAR A 1 type stages z.1 z.2))) - wstep (quadF n m) stages z.1 (pointR n type (plainAR z.2))‖ ≤ C * u)
    (fun q C C' u u' hC hu h A v hA h0 hv z hz hk => (h A v hA h0 (hv.trans hu) z hz hk).trans (mul_le_mul_of_nonneg_right hC h0))
    (indices n ×ˢ indices n) fun q hq => by
      obtain ⟨h1, h2⟩ := List.mem_product.1 hq
      exact archain_step hn hm hty hκ hW hWU inW hρ (indices_isIndex h1) (indices_isIndex h2)
  exact ⟨C, u0, a, b, fun σ hσ τ hτ => h (σ, τ) (List.mem_product.2 ⟨hσ, hτ⟩)⟩

end

/-! ### the invariant -/

theorem chainPart_stage (A : Arith) (G : ℝ) (type : ReguType) (h : ℝ) (c : Stage) (s : ARSys) {δ : ℝ} (hn : 1 ≤ n) (T : Tied A n δ (chainPart s)) :
    Tied A n δ (chainPart (stageAR A G type h c s)) ∧ (stageAR A G type h c s).P.mass = s.P.mass ∧ (stageAR A G type h c s).index = s.index ∧
      (stageAR A G type h c s).P.num = s.P.num := by
  obtain ⟨hnum, b, c1, c2⟩ := T
  obtain rfl : s.P.num = n := hnum
  cases c with
  | drift c => exact ⟨⟨rfl, b, Tie.cart hn b _ _, c2⟩, rfl, rfl, rfl⟩
  | kick c => exact ⟨⟨rfl, b, c1, Tie.cart hn b _ _⟩, rfl, rfl, rfl⟩

theorem chainPart_step (A : Arith) (G : ℝ) (type : ReguType) (h : ℝ) {δ : ℝ} (hn : 1 ≤ n) (stages : List Stage) : ∀ s : ARSys, Tied A n δ (chainPart s) →
    Tied A n δ (chainPart (stepAR A G type stages h s)) ∧ (stepAR A G type stages h s).P.mass = s.P.mass ∧ (stepAR A G type stages h s).index = s.index ∧
      (stepAR A G type stages h s).P.num = s.P.num := by
  induction stages with
  | nil => exact fun s T => ⟨T, rfl, rfl, rfl⟩
  | cons c l ih =>
    intro s T
    obtain ⟨a1, a2, a3, a4⟩ := chainPart_stage A G type h c s hn T
    obtain ⟨b1, b2, b3, b4⟩ := ih _ a1
    exact ⟨b1, b2.trans a2, b3.trans a3, b4.trans a4⟩

theorem postIterAR_keeps (A : Arith) (τ : Arr Nat) (s : ARSys) : (postIterAR A τ s).P.mass = s.P.mass ∧ (postIterAR A τ s).P.num = s.P.num ∧
    ((postIterAR A τ s).index = τ ∨ (postIterAR A τ s).index = s.index) ∧ (postIterAR A τ s).time = s.time := by
  unfold postIterAR
  by_cases h : ∃ k, k < s.P.num ∧ τ k ≠ s.index k
  · rw [if_pos h]; exact ⟨rfl, rfl, .inl rfl, rfl⟩
  · rw [if_neg h]; exact ⟨rfl, rfl, .inr rfl, rfl⟩

end SpaceHub.Rounded
