import Verif.Proof.RadauSweep
import Verif.Proof.RadauNodes

/-
C47: the Gauss-Radau integrator.
-/

set_option autoImplicit false

namespace SpaceHub.Props
open SpaceHub SpaceHub.Sys SpaceHub.Radau Finset

/-! ### the tables -/

/-- The literal sub-steps are the nodes of the Gauss-Radau rule, to 25 decimals. -/
theorem C47_nodes : ∃ c : Nat → ℝ, RadauNodes c ∧ ∀ n, n < 7 → |code.h n - c n| ≤ 1 / 10 ^ 25 := by
  obtain ⟨c, hc, h⟩ := exists_nodes
  exact ⟨c, hc.radau, fun n hn => by rw [abs_sub_comm]; exact h n hn⟩

theorem power_expand {K : Type} [Field K] (c : Nat → K) (n N : Nat) (hN : n < N) (τ : K) :
    τ ^ n = ∑ j ∈ range N, coefB2G c n j * ∏ k ∈ range j, (τ - c k) := by
  have h1 : ∀ j ∈ range N, coefB2G c n j * ∏ k ∈ range j, (τ - c k) = ∑ i ∈ range N, coefB2G c n j * coefG2B c j i * τ ^ i := by
    intro j hj
    rw [newton_expand c j N (mem_range.1 hj), mul_sum]
    exact sum_congr rfl fun i _ => by ring
  rw [sum_congr rfl h1, sum_comm]
  have h2 : ∀ i ∈ range N, ∑ j ∈ range N, coefB2G c n j * coefG2B c j i * τ ^ i = if n = i then τ ^ i else 0 := by
    intro i _
    rw [← sum_mul, b2g_g2b c n i N hN]
    split_ifs <;> simp
  rw [sum_congr rfl h2, sum_ite_eq (range N) n, if_pos (mem_range.2 hN)]

/-- The literal tables: row `n` of `g2b_` holds the coefficients of `(τ - h_0) ... (τ - h_(n-1))` in powers of `τ`, row `n`
of `b2g_` those of `τ^n` in these products, each to 28 decimals; `rs_` holds the reciprocal products of differences of the
nodes to 26 decimals; `est_b_` holds binomial coefficients. -/
theorem C47_tables :
    (∃ e : Nat → Nat → ℝ, (∀ n, n < 7 → ∀ τ : ℝ, ∏ k ∈ range n, (τ - code.h k) = ∑ j ∈ range (n + 1), e n j * τ ^ j) ∧
      ∀ n j, n < 7 → j ≤ n → |code.g2b n j - e n j| ≤ 1 / 10 ^ 28) ∧
    (∃ e : Nat → Nat → ℝ, (∀ n, n < 7 → ∀ τ : ℝ, τ ^ n = ∑ j ∈ range (n + 1), e n j * ∏ k ∈ range j, (τ - code.h k)) ∧
      ∀ n j, n < 7 → j ≤ n → |code.b2g n j - e n j| ≤ 1 / 10 ^ 28) ∧
    (∀ n, n < 7 → |code.rs n 0 - 1 / (code.h n * ∏ k ∈ range n, (code.h n - code.h k))| ≤ 1 / 10 ^ 26) ∧
    (∀ n j, n < 7 → j < n → |code.rs n (j + 1) - 1 / ∏ k ∈ Ico j n, (code.h n - code.h k)| ≤ 1 / 10 ^ 26) ∧
    (∀ n j, n < 7 → j ≤ n → code.estB n j = (n + 1).choose (j + 1)) := by
  have hG : ∀ n j, ((coefG2B nodes n j : ℚ) : ℝ) = coefG2B code.h n j := by
    intro n
    induction n with
    | zero => intro j; cases j <;> simp [coefG2B]
    | succ n ih =>
      intro j
      cases j with
      | zero => simp only [coefG2B]; push_cast; rw [ih]; rfl
      | succ j => simp only [coefG2B]; push_cast; rw [ih, ih]; rfl
  have hB : ∀ n j, ((coefB2G nodes n j : ℚ) : ℝ) = coefB2G code.h n j := by
    intro n
    induction n with
    | zero => intro j; cases j <;> simp [coefB2G]
    | succ n ih =>
      intro j
      cases j with
      | zero => simp only [coefB2G]; push_cast; rw [ih]; rfl
      | succ j => simp only [coefB2G]; push_cast; rw [ih, ih]; rfl
  refine ⟨⟨coefG2B code.h, fun n hn τ => newton_expand _ _ _ (Nat.lt_succ_self n) τ, fun n j hn hj => ?_⟩,
    ⟨coefB2G code.h, fun n hn τ => power_expand _ _ _ (Nat.lt_succ_self n) τ, fun n j hn hj => ?_⟩, fun n hn => ?_,
    fun n j hn hj => ?_, fun n j hn hj => ?_⟩
  · rw [← hG]
    have h' : ((|tri g2bList n j - coefG2B nodes n j| : ℚ) : ℝ) ≤ ((1 / 10 ^ 28 : ℚ) : ℝ) := Rat.cast_le.2 (table_g2b n hn j hj)
    push_cast at h'
    exact h'
  · rw [← hB]
    have h' : ((|tri b2gList n j - coefB2G nodes n j| : ℚ) : ℝ) ≤ ((1 / 10 ^ 28 : ℚ) : ℝ) := Rat.cast_le.2 (table_b2g n hn j hj)
    push_cast at h'
    exact h'
  · have h := table_rs n hn 0 (Nat.zero_le _)
    have h' : ((|tri rsList n 0 - coefRS nodes n 0| : ℚ) : ℝ) ≤ ((1 / 10 ^ 26 : ℚ) : ℝ) := by exact_mod_cast h
    simp only [coefRS] at h'
    push_cast at h'
    rw [one_div]
    exact h'
  · have h := table_rs n hn (j + 1) (by omega)
    have h' : ((|tri rsList n (j + 1) - coefRS nodes n (j + 1)| : ℚ) : ℝ) ≤ ((1 / 10 ^ 26 : ℚ) : ℝ) := by exact_mod_cast h
    simp only [coefRS] at h'
    push_cast at h'
    rw [one_div]
    exact h'
  · have h := table_estB n hn j hj
    show ((tri estBList n j : ℚ) : ℝ) = _
    rw [h]; norm_cast

/-- For all nodes the two conversions undo each other, for every set of coefficients. -/
theorem C47_round_trip (c : Nat → ℝ) (A : Nat → Arr ℝ) (stage v : Nat) (hs : stage < 7) :
    transformB2G (exact c) (transformG2B (exact c) A) stage v = A stage v ∧
    transformG2B (exact c) (transformB2G (exact c) A) stage v = A stage v := by
  have hg : ∀ (A : Nat → Arr ℝ) k, k < 7 → transformG2B (exact c) A k v = ∑ j ∈ range 7, A j v * coefG2B c j k := fun A k hk => by
    rw [transformG2B_eq _ _ _ _ hk]
    exact sum_low (fun j => A j v) (coefG2B c) k hk fun j hj => coefG2B_zero c j k hj
  have hb : ∀ (A : Nat → Arr ℝ) k, k < 7 → transformB2G (exact c) A k v = ∑ j ∈ range 7, A j v * coefB2G c j k := fun A k hk => by
    rw [transformB2G_eq _ _ _ _ hk]
    exact sum_low (fun j => A j v) (coefB2G c) k hk fun j hj => coefB2G_zero c j k hj
  have key : ∀ M N : Nat → Nat → ℝ, (∀ j, j < 7 → ∑ k ∈ range 7, M j k * N k stage = if j = stage then 1 else 0) →
      ∑ k ∈ range 7, (∑ j ∈ range 7, A j v * M j k) * N k stage = A stage v := by
    intro M N h
    simp only [sum_mul]
    rw [sum_comm]
    have : ∀ j ∈ range 7, ∑ k ∈ range 7, A j v * M j k * N k stage = if j = stage then A j v else 0 := fun j hj => by
      simp only [mul_assoc]
      rw [← mul_sum, h j (mem_range.1 hj)]
      split_ifs <;> simp
    rw [sum_congr rfl this, sum_ite_eq' (range 7) stage, if_pos (mem_range.2 hs)]
  constructor
  · rw [hb _ stage hs, sum_congr rfl fun k hk => by rw [hg A k (mem_range.1 hk)]]
    exact key _ _ fun j hj => g2b_b2g c j stage 7 hj
  · rw [hg _ stage hs, sum_congr rfl fun k hk => by rw [hb A k (mem_range.1 hk)]]
    exact key _ _ fun j hj => b2g_g2b c j stage 7 hj

theorem product_gb : ∀ j, j < 7 → ∀ s, s < 7 →
    |(∑ k ∈ Ico s 7, (if k ≤ j then tri g2bList j k else 0) * tri b2gList k s) - (if j = s then 1 else 0)| ≤ 1 / 10 ^ 28 := by decide +kernel
theorem product_bg : ∀ j, j < 7 → ∀ s, s < 7 →
    |(∑ k ∈ Ico s 7, (if k ≤ j then tri b2gList j k else 0) * tri g2bList k s) - (if j = s then 1 else 0)| ≤ 1 / 10 ^ 28 := by decide +kernel

theorem round_trip_bound (A : Nat → Arr ℝ) (v s : Nat) (P Q : Nat → Nat → ℚ)
    (h : ∀ j, j < 7 → |(∑ k ∈ Ico s 7, (if k ≤ j then P j k else 0) * Q k s) - (if j = s then 1 else 0)| ≤ 1 / 10 ^ 28) (hs : s < 7) :
    |(∑ k ∈ Ico s 7, (∑ j ∈ Ico k 7, A j v * (P j k : ℝ)) * (Q k s : ℝ)) - A s v| ≤ (∑ j ∈ range 7, |A j v|) / 10 ^ 28 := by
  have e1 : ∀ k ∈ Ico s 7, (∑ j ∈ Ico k 7, A j v * (P j k : ℝ)) * (Q k s : ℝ) =
      ∑ j ∈ range 7, A j v * ((if k ≤ j then (P j k : ℝ) else 0) * (Q k s : ℝ)) := by
    intro k hk
    rw [range_eq_Ico, ← sum_Ico_consecutive _ (Nat.zero_le k) (mem_Ico.1 hk).2.le, sum_mul]
    rw [sum_eq_zero (s := Ico 0 k) (fun j hj => by rw [if_neg (by have := (mem_Ico.1 hj).2; omega)]; ring), zero_add]
    exact sum_congr rfl fun j hj => by rw [if_pos (mem_Ico.1 hj).1]; ring
  have e2 : A s v = ∑ j ∈ range 7, A j v * (if j = s then 1 else 0) := by
    simp only [mul_ite, mul_one, mul_zero]
    rw [sum_ite_eq' (range 7) s, if_pos (mem_range.2 hs)]
  rw [sum_congr rfl e1, sum_comm]
  conv_lhs => rw [e2]
  rw [← sum_sub_distrib, sum_div]
  refine (abs_sum_le_sum_abs _ _).trans (sum_le_sum fun j hj => ?_)
  rw [← mul_sum, ← mul_sub, abs_mul, div_eq_mul_one_div]
  refine mul_le_mul_of_nonneg_left ?_ (abs_nonneg _)
  have := h j (mem_range.1 hj)
  have h' : ((|(∑ k ∈ Ico s 7, (if k ≤ j then P j k else 0) * Q k s) - (if j = s then 1 else 0)| : ℚ) : ℝ) ≤ ((1 / 10 ^ 28 : ℚ) : ℝ) := by
    exact_mod_cast this
  push_cast [apply_ite (Rat.cast : ℚ → ℝ)] at h'
  exact h'

/-- With the tables of the program the conversions undo each other up to 28 decimals. -/
theorem C47_round_trip_code (A : Nat → Arr ℝ) (stage v : Nat) (hs : stage < 7) :
    |transformB2G code (transformG2B code A) stage v - A stage v| ≤ (∑ j ∈ range 7, |A j v|) / 10 ^ 28 ∧
    |transformG2B code (transformB2G code A) stage v - A stage v| ≤ (∑ j ∈ range 7, |A j v|) / 10 ^ 28 := by
  constructor
  · rw [transformB2G_eq _ _ _ _ hs, sum_congr rfl fun k hk => by rw [transformG2B_eq _ _ _ _ (mem_Ico.1 hk).2]]
    exact round_trip_bound A v stage (tri g2bList) (tri b2gList) (fun j hj => product_gb j hj stage hs) hs
  · rw [transformG2B_eq _ _ _ _ hs, sum_congr rfl fun k hk => by rw [transformB2G_eq _ _ _ _ (mem_Ico.1 hk).2]]
    exact round_trip_bound A v stage (tri b2gList) (tri g2bList) (fun j hj => product_bg j hj stage hs) hs

/-! ### the predictor -/

/-- The predictor re-expands the derivative polynomial of the step just made about its end, in units of a step that is `q`
times as long; the coefficients for the next step are that expansion plus what the last correction added to the last
prediction.  (Tables of the program.) -/
theorem C47_predict (r : GR) (q d0 : ℝ) (v : Nat) :
    (∀ τ : ℝ, slope (slope d0 (fun j => r.b j v) 1) (fun j => (r.predict code q).old j v) τ =
      slope d0 (fun j => r.b j v) (1 + q * τ)) ∧
    ∀ j, j < 7 → (r.predict code q).b j v = (r.predict code q).old j v + (r.b j v - r.old j v) := by
  refine ⟨fun τ => ?_, fun j hj => by rw [(predict_eq code r q j v hj).1, (predict_eq code r q j v hj).2.1]⟩
  have hest : ∀ i, i < 7 → (r.predict code q).old i v = q ^ (i + 1) * ∑ j ∈ Ico i 7, r.b j v * ((j + 1).choose (i + 1) : ℝ) := by
    intro i hi
    rw [(predict_eq code r q i v hi).2.1]
    unfold reexpand
    congr 1
    refine sum_congr rfl fun j hj => ?_
    rw [C47_tables.2.2.2.2 j i (mem_Ico.1 hj).2 (mem_Ico.1 hj).1]
  have e1 : slope (slope d0 (fun j => r.b j v) 1) (fun j => (r.predict code q).old j v) τ =
      slope (slope d0 (fun j => r.b j v) 1) (fun i => q ^ (i + 1) * ∑ j ∈ Ico i 7, r.b j v * ((j + 1).choose (i + 1) : ℝ)) τ := by
    unfold Radau.slope
    congr 1
    exact sum_congr rfl fun i hi => by dsimp only; rw [hest i (mem_range.1 hi)]
  rw [e1]
  unfold Radau.slope
  simp [sum_range_succ, sum_Ico_succ_top, Nat.choose]
  ring

/-- The first time the predictor is used nothing has been predicted before, and it adds all of `b` once more: the slope it
hands to the next step is off by the whole polynomial of the first step. -/
theorem C47_first_predict (r : GR) (hr : ∀ j v, r.old j v = 0) (q d0 : ℝ) (v : Nat) (τ : ℝ) :
    slope (slope d0 (fun j => r.b j v) 1) (fun j => (r.predict code q).b j v) τ =
      slope d0 (fun j => r.b j v) (1 + q * τ) + (slope d0 (fun j => r.b j v) τ - d0) := by
  obtain ⟨h1, h2⟩ := C47_predict r q d0 v
  rw [← h1 τ]
  unfold Radau.slope
  have : ∀ i ∈ range 7, (r.predict code q).b i v * τ ^ (i + 1) = (r.predict code q).old i v * τ ^ (i + 1) + r.b i v * τ ^ (i + 1) :=
    fun i hi => by rw [h2 i (mem_range.1 hi), hr]; ring
  rw [sum_congr rfl this, sum_add_distrib]
  ring

/-! ### the corrector -/

/-- Integrator objects that some use of the class can produce: a new one, one that has made a correction of some system, or
one on which the predictor was called. -/
inductive Used (T : Tab) : GR → Prop
  | new : Used T GR.new
  | correct {S : Type} (O : RSys S) (H : ℝ) (r r' : GR) (s s' : S) : Used T r → correct T O H r s = .ok (s', r') → Used T r'
  | predict (r : GR) (q : ℝ) : Used T r → Used T (r.predict T q)

/-- `correct` unfolded -/
theorem correct_path {S : Type} {T : Tab} {O : RSys S} {H : ℝ} {r r' : GR} {s s' : S} (e : correct T O H r s = .ok (s', r')) :
    ∃ d R st X D, O.deriv s = .ok d ∧ Path T O H 0 7 R st X D ∧ st 0 = d.2 ∧ st 7 = s' ∧ R 7 = r' ∧
      (R 0).input = O.write s ∧ (R 0).dy0 = GR.toArr d.1 ∧ (R 0).num = (O.write s).length ∧
      ((r.num = (O.write s).length ∧ (R 0).b = r.b ∧ (R 0).g = r.g) ∨
        (r.num ≠ (O.write s).length ∧ (∀ j v, (R 0).b j v = 0) ∧ ∀ j v, (R 0).g j v = 0)) := by
  unfold correct at e
  dsimp only at e
  obtain ⟨d, e1, e⟩ := Res.bind_eq_ok.1 e
  obtain ⟨R, st, X, D, p, q1, q2, q3, q4⟩ := sweep_path T O H 7 0 _ _ _ _ e
  refine ⟨d, R, st, X, D, e1, p, q2, q4, q3, ?_⟩
  rw [q1]
  unfold GR.checkSize
  by_cases h : r.num = (O.write s).length
  · rw [if_neg (not_not.2 h)]
    exact ⟨rfl, rfl, h, Or.inl ⟨h, rfl, rfl⟩⟩
  · rw [if_pos h]
    exact ⟨rfl, rfl, rfl, Or.inr ⟨h, fun _ _ => rfl, fun _ _ => rfl⟩⟩

theorem Path.start_consistent {c : Nat → ℝ} {r : GR} (h : Consistent c r) (R0 : GR)
    (h0 : (R0.b = r.b ∧ R0.g = r.g) ∨ ((∀ j v, R0.b j v = 0) ∧ ∀ j v, R0.g j v = 0)) : Consistent c R0 := by
  intro stage v hs
  rcases h0 with ⟨e1, e2⟩ | ⟨e1, e2⟩
  · rw [e1, e2]; exact h stage v hs
  · rw [e1]; simp [e2]

theorem used_consistent {c : Nat → ℝ} {r : GR} (h : Used (exact c) r) : Consistent c r := by
  induction h with
  | new => exact consistent_new c
  | correct O H r r' s s' hr e ih =>
    obtain ⟨d, R, st, X, D, _, p, _, _, h7, _, _, _, h0⟩ := correct_path e
    rw [← h7]
    refine p.consistent (Path.start_consistent ih (R 0) ?_) 7 le_rfl
    rcases h0 with ⟨_, h1, h2⟩ | ⟨_, h1, h2⟩
    · exact Or.inl ⟨h1, h2⟩
    · exact Or.inr ⟨h1, h2⟩
  | predict r q hr ih => exact consistent_predict c r q

/-- One correction, on an object with any history: the system is moved to seven states, one per node, each of them the start
plus the integral of the current derivative polynomial up to that node; afterwards the derivative polynomial takes the
derivative of the start at 0, and at each node the derivative found there; the system is left as the last read of the start
leaves it. -/
theorem C47_corrector {S : Type} {c : Nat → ℝ} (hc : Distinct c) (O : RSys S) (H : ℝ) {r r' : GR} {s s' : S}
    (hr : Used (exact c) r) (e : correct (exact c) O H r s = .ok (s', r')) :
    ∃ (d : List ℝ × S) (y : Nat → List ℝ) (b : Nat → Nat → Nat → ℝ) (at_ X : Nat → S) (D : Nat → List ℝ × S),
      O.deriv s = .ok d ∧ at_ 0 = d.2 ∧ at_ 7 = s' ∧ r'.input = O.write s ∧
      (∀ n, n < 7 → (y n).length = (O.write s).length ∧ (∀ v, v < (O.write s).length → (y n).getD v 0 = (O.write s).getD v 0 +
          H * ∫ τ in (0 : ℝ)..c n, slope (d.1.getD v 0) (b n v) τ) ∧
        O.read (at_ n) (y n) = .ok (X n) ∧ O.deriv (X n) = .ok (D n) ∧ O.read (D n).2 (O.write s) = .ok (at_ (n + 1))) ∧
      (∀ v, r'.dy0 v = d.1.getD v 0) ∧
      ∀ n v, n < 7 → slope (d.1.getD v 0) (fun j => r'.b j v) (c n) = (D n).1.getD v 0 := by
  obtain ⟨d, R, st, X, D, hd, p, h0, h7, hR7, hin, hdy, hnum, hbg⟩ := correct_path e
  have hcons : Consistent c (R 0) := Path.start_consistent (used_consistent hr) (R 0) (by
    rcases hbg with ⟨_, h1, h2⟩ | ⟨_, h1, h2⟩
    · exact Or.inl ⟨h1, h2⟩
    · exact Or.inr ⟨h1, h2⟩)
  have hdy7 : r'.dy0 = GR.toArr d.1 := by rw [← hR7, (p.fixed 7 le_rfl).2.1, hdy]
  refine ⟨d, fun n => (R n).stageState (exact c) H n, fun n v j => (R n).b j v, st, X, D, hd, h0, h7,
    by rw [← hR7, (p.fixed 7 le_rfl).1, hin], fun n hn => ?_, fun v => by rw [hdy7]; rfl, fun n v hn => ?_⟩
  · obtain ⟨h1, h2⟩ := stageState_eq (exact c) (R n) H n
    have hi := (p.fixed n hn.le).1.trans hin
    have hd0 := (p.fixed n hn.le).2.1.trans hdy
    rw [hi] at h1 h2
    refine ⟨h1, fun v hv => ?_, p.read n (Nat.zero_le _) (by omega), p.deriv n (Nat.zero_le _) (by omega), ?_⟩
    · rw [h2 v hv, hd0]; rfl
    · have := p.back n (Nat.zero_le _) (by omega)
      rwa [hi] at this
  · have := p.interpolates hc hcons n hn v
    rw [hR7, hdy7] at this
    exact this

/-- When a correction changes nothing any more, the states at the nodes solve the collocation equations: each is the start plus
the integral, up to its node, of the polynomial that takes the derivatives of these very states at the nodes. -/
theorem C47_collocation {S : Type} {c : Nat → ℝ} (hc : Distinct c) (O : RSys S) (H : ℝ) {r r' : GR} {s s' : S}
    (hr : Used (exact c) r) (e : correct (exact c) O H r s = .ok (s', r'))
    (hsize : r.num = (O.write s).length) (hfix : ∀ j v, j < 7 → r'.g j v = r.g j v) :
    ∃ (d : List ℝ × S) (at_ X : Nat → S) (D : Nat → List ℝ × S) (y : Nat → List ℝ),
      O.deriv s = .ok d ∧
      (∀ n, n < 7 → (y n).length = (O.write s).length ∧ (∀ v, v < (O.write s).length → (y n).getD v 0 = (O.write s).getD v 0 +
          H * ∫ τ in (0 : ℝ)..c n, slope (d.1.getD v 0) (fun j => r'.b j v) τ) ∧
        O.read (at_ n) (y n) = .ok (X n) ∧ O.deriv (X n) = .ok (D n)) ∧
      ∀ n v, n < 7 → slope (d.1.getD v 0) (fun j => r'.b j v) (c n) = (D n).1.getD v 0 := by
  obtain ⟨d, R, st, X, D, hd, p, h0, h7, hR7, hin, hdy, hnum, hbg⟩ := correct_path e
  rcases hbg with ⟨_, hb, hg⟩ | ⟨hne, _⟩
  · have hcons : Consistent c (R 0) := Path.start_consistent (used_consistent hr) (R 0) (Or.inl ⟨hb, hg⟩)
    have hdy7 : r'.dy0 = GR.toArr d.1 := by rw [← hR7, (p.fixed 7 le_rfl).2.1, hdy]
    have hstill : ∀ n, n ≤ 7 → ∀ j v, (R n).b j v = r'.b j v := by
      intro n hn j v
      have := p.still v (fun j hj => by rw [hR7, hfix j v hj, hg])
      rw [this n hn j, ← this 7 le_rfl j, hR7]
    refine ⟨d, st, X, D, fun n => (R n).stageState (exact c) H n, hd, fun n hn => ?_, fun n v hn => ?_⟩
    · obtain ⟨h1, h2⟩ := stageState_eq (exact c) (R n) H n
      have hi := (p.fixed n hn.le).1.trans hin
      have hd0 := (p.fixed n hn.le).2.1.trans hdy
      rw [hi] at h1 h2
      refine ⟨h1, fun v hv => ?_, p.read n (Nat.zero_le _) (by omega), p.deriv n (Nat.zero_le _) (by omega)⟩
      rw [h2 v hv, hd0, funext fun j => hstill n hn.le j v]; rfl
    · have := p.interpolates hc hcons n hn v
      rw [hR7, hdy7] at this
      exact this
  · exact absurd hsize hne

/-- What is handed to the system at the end of a step: the start plus the integral of the derivative polynomial over the whole
step. -/
theorem C47_evaluate {S : Type} (O : RSys S) (H : ℝ) (r : GR) (s s' : S) (e : evaluate O H r s = .ok s') :
    ∃ y : List ℝ, O.read s y = .ok s' ∧ y.length = r.input.length ∧ ∀ v, v < r.input.length → y.getD v 0 = r.input.getD v 0 +
      H * ∫ τ in (0 : ℝ)..1, slope (r.dy0 v) (fun j => r.b j v) τ := by
  obtain ⟨h1, h2⟩ := finalState_eq r H
  exact ⟨r.finalState H, e, h1, h2⟩

/-- Order of the rule at the true nodes: if along the step a derivative is a polynomial of degree at most 14 in the fraction of the
step, the derivative polynomial that agrees with it at the nodes has the same integral over the step; for degree 15 this
fails. -/
theorem C47_order {c : Nat → ℝ} (hc : RadauNodes c) :
    (∀ (p : Polynomial ℝ) (b : Nat → ℝ), p.natDegree ≤ 14 → (∀ n, n < 7 → slope (p.eval 0) b (c n) = p.eval (c n)) →
      ∫ τ in (0 : ℝ)..1, slope (p.eval 0) b τ = ∫ τ in (0 : ℝ)..1, p.eval τ) ∧
    ∃ (p : Polynomial ℝ) (b : Nat → ℝ), p.natDegree = 15 ∧ (∀ n, n < 7 → slope (p.eval 0) b (c n) = p.eval (c n)) ∧
      ∫ τ in (0 : ℝ)..1, slope (p.eval 0) b τ ≠ ∫ τ in (0 : ℝ)..1, p.eval τ := by
  refine ⟨fun p b hp hb => quadrature hc p hp b hb, ?_⟩
  obtain ⟨p, h1, b, h2, h3⟩ := not_quadrature hc
  exact ⟨p, b, h1, h2, h3⟩

/-! ### a concrete case -/

/-- one variable that grows at rate 1 -/
noncomputable def clockSys : RSys ℝ where
  write := fun x => [x]
  read := fun _ y => .ok (y.getD 0 0)
  deriv := fun x => .ok ([1], x)
  mask := fun _ _ _ => false

theorem clock_correct (T : Tab) (H : ℝ) (r : GR) (x : ℝ) (hg : ∀ j v, r.g j v = 0) :
    ∃ r', correct T clockSys H r x = .ok (x, r') ∧ r'.num = 1 ∧ ∀ j v, r'.g j v = 0 := by
  unfold correct
  have key : ∀ m stage (r : GR), r.input = [x] → r.num = 1 → (∀ j v, r.g j v = 0) → r.dy0 = GR.toArr [1] →
      ∃ r', sweep T clockSys H m stage r x = .ok (x, r') ∧ r'.num = 1 ∧ ∀ j v, r'.g j v = 0 := by
    intro m
    induction m with
    | zero => intro stage r _ hn hg _; exact ⟨r, rfl, hn, hg⟩
    | succ m ih =>
      intro stage r hr hn hg hd
      obtain ⟨r', h⟩ := ih (stage + 1) (GR.updateB T { r with dyh := GR.toArr [1] } stage) hr hn (by
        intro j v
        obtain ⟨h1, h2, _⟩ := updateB_eq T { r with dyh := GR.toArr [1] } stage v
        by_cases hj : j = stage
        · rw [hj, h1]; unfold newG; simp [hd, hg]
        · rw [h2 j hj]; exact hg j v) hd
      refine ⟨r', ?_⟩
      unfold sweep
      have hx : r.input.getD 0 0 = x := by rw [hr]; rfl
      refine ⟨?_, h.2⟩
      show sweep T clockSys H m (stage + 1) (GR.updateB T { r with dyh := GR.toArr [1] } stage) (r.input.getD 0 0) = _
      rw [hx]; exact h.1
  have h3 : ∀ r1 : GR, r1 = ({ r with input := [x] } : GR).checkSize 1 → r1.input = [x] ∧ r1.num = 1 ∧ ∀ j v, r1.g j v = 0 := by
    intro r1 e
    rw [e]
    unfold GR.checkSize
    by_cases hn : r.num = 1
    · rw [if_neg (not_not.2 hn)]; exact ⟨rfl, hn, hg⟩
    · rw [if_pos hn]; exact ⟨rfl, rfl, fun _ _ => rfl⟩
  obtain ⟨h3, h4, h5⟩ := h3 _ rfl
  exact key 7 0 { ({ r with input := [x] } : GR).checkSize 1 with dy0 := GR.toArr [1] } h3 h4 h5 rfl

/-- The hypotheses of `C47_corrector` and `C47_collocation` are met: a new integrator at the true nodes; the second correction
changes nothing. -/
example : ∃ (c : Nat → ℝ) (r r' : GR), Distinct c ∧ Used (exact c) r ∧ r.num = (clockSys.write 3).length ∧
    correct (exact c) clockSys (1 / 2) r 3 = .ok (3, r') ∧ ∀ j v, j < 7 → r'.g j v = r.g j v := by
  obtain ⟨c, hc, _⟩ := C47_nodes
  obtain ⟨r, h, hn, hg⟩ := clock_correct (exact c) (1 / 2) GR.new 3 fun _ _ => rfl
  obtain ⟨r', h', _, hg'⟩ := clock_correct (exact c) (1 / 2) r 3 hg
  exact ⟨c, r, r', hc.distinct, .correct _ _ _ _ _ _ .new h, hn, h', fun j v _ => by rw [hg, hg']⟩

end SpaceHub.Props
