import Verif.Model.RoundedRegu
import Verif.Proof.RoundedChain
import Verif.Props.RoundedRun
import Verif.Props.ConvergeReguOrder
import Verif.Props.Digits
import Mathlib.Analysis.Calculus.ContDiff.RCLike

/-
What rounding does to a step of a regularised system.
-/

set_option autoImplicit false

namespace SpaceHub.Rounded
open SpaceHub V3 Force Core Integrator Spec Sys Props Converge
open scoped ContDiff

variable {Z : Type} {V : ℝ → Z → Prop} {S : Set Z} {n : Nat}

/-! ### energies -/

theorem Near.zero : Near V S (fun _ _ => (0 : ℝ)) (fun _ => 0) := .fixed (fun _ => 0) (B := 0) (by simp)

theorem Near.loop {lo : Nat} {body : Arith → Z → Nat → ℝ → ℝ} {body0 : Z → Nat → ℝ → ℝ} {init : Arith → Z → ℝ} {init0 : Z → ℝ} (h0 : Near V S init init0) :
    ∀ hi, (∀ i, lo ≤ i → i < hi → ∀ F F0, Near V S F F0 → Near V S (fun A z => body A z i (F A z)) (fun z => body0 z i (F0 z))) →
      Near V S (fun A z => forLoop lo hi (body A z) (init A z)) (fun z => forLoop lo hi (body0 z) (init0 z)) := by
  intro hi
  induction hi with
  | zero => intro _; exact h0.congr (fun A z _ => forLoop_self _ _ (Nat.zero_le _) _ _) fun z _ => forLoop_self _ _ (Nat.zero_le _) _ _
  | succ hi ih =>
    intro h
    by_cases hle : lo ≤ hi
    · exact (h hi hle (by omega) _ _ (ih fun i h1 h2 => h i h1 (by omega))).congr (fun A z _ => forLoop_succ _ _ hle _ _) fun z _ => forLoop_succ _ _ hle _ _
    · exact h0.congr (fun A z _ => forLoop_self _ _ (by omega) _ _) fun z _ => forLoop_self _ _ (by omega) _ _

/-- a product without rounding -/
theorem Near.times {F G : Arith → Z → ℝ} {F0 G0 : Z → ℝ} (hF : Near V S F F0) (hG : Near V S G G0) : Near V S (fun A z => F A z * G A z) (fun z => F0 z * G0 z) := by
  obtain ⟨B1, C1, u1, hB1, hC1, p1, q1, b1, c1⟩ := hF
  obtain ⟨B2, C2, u2, hB2, hC2, p2, q2, b2, c2⟩ := hG
  refine ⟨B1 * B2, C1 * (B2 + C2) + B1 * C2, min u1 u2, by positivity, by positivity, lt_min p1 p2, (min_le_left _ _).trans q1,
    fun z hz => ?_, fun A u hA hu hu0 z hz hv => ?_⟩
  · show |F0 z * G0 z| ≤ _
    rw [abs_mul]
    exact mul_le_mul (b1 z hz) (b2 z hz) (abs_nonneg _) hB1
  · have h1 := c1 A u hA hu (hu0.trans (min_le_left _ _)) z hz hv
    have h2 := c2 A u hA hu (hu0.trans (min_le_right _ _)) z hz hv
    have hu1 : u ≤ 1 := hu0.trans ((min_le_left _ _).trans q1)
    have s2 := size_le (b2 z hz) h2 hC2 hu1
    have r1 : |(F A z - F0 z) * G A z| ≤ C1 * u * (B2 + C2) := by
      rw [abs_mul]
      exact mul_le_mul h1 s2 (abs_nonneg _) (by positivity)
    have r2 : |F0 z * (G A z - G0 z)| ≤ B1 * (C2 * u) := by
      rw [abs_mul]
      exact mul_le_mul (b1 z hz) h2 (abs_nonneg _) hB1
    show |F A z * G A z - F0 z * G0 z| ≤ _
    have e : F A z * G A z - F0 z * G0 z = (F A z - F0 z) * G A z + F0 z * (G A z - G0 z) := by ring
    rw [e]
    have t2 := abs_add_le ((F A z - F0 z) * G A z) (F0 z * (G A z - G0 z))
    linarith only [t2, r1, r2]

theorem near_dot {a b : Arith → Z → V3 ℝ} {a0 b0 : Z → V3 ℝ} (ha : NearV V S a a0) (hb : NearV V S b b0) :
    Near V S (fun A z => dotR A (a A z) (b A z)) (fun z => dotR .exact (a0 z) (b0 z)) :=
  ((ha.1.mul hb.1).add (ha.2.1.mul hb.2.1)).add (ha.2.2.mul hb.2.2)

theorem near_contract {m : Arith → Z → Arr ℝ} {m0 : Z → Arr ℝ} (hm : ∀ k, k < n → Near V S (fun A z => m A z k) (fun z => m0 z k))
    {a b : Arith → Z → Arr (V3 ℝ)} {a0 b0 : Z → Arr (V3 ℝ)} (ha : NearA n V S a a0) (hb : NearA n V S b b0) :
    Near V S (fun A z => contractR A n (m A z) (a A z) (b A z)) (fun z => contractR .exact n (m0 z) (a0 z) (b0 z)) :=
  Near.loop (body := fun A z i s => A.add s (A.mul (dotR A (a A z i) (b A z i)) (m A z i)))
    (body0 := fun z i s => s + dotR .exact (a0 z i) (b0 z i) * m0 z i) Near.zero n fun i _ hi _ _ hF => hF.add ((near_dot (ha i hi) (hb i hi)).mul (hm i hi))

/-- the same without rounding the operations -/
theorem near_contract' {m : Arith → Z → Arr ℝ} {m0 : Z → Arr ℝ} (hm : ∀ k, k < n → Near V S (fun A z => m A z k) (fun z => m0 z k))
    {a b : Arith → Z → Arr (V3 ℝ)} {a0 b0 : Z → Arr (V3 ℝ)} (ha : NearA n V S a a0) (hb : NearA n V S b b0) :
    Near V S (fun A z => contractR .exact n (m A z) (a A z) (b A z)) (fun z => contractR .exact n (m0 z) (a0 z) (b0 z)) :=
  Near.loop (body := fun A z i s => s + dotR .exact (a A z i) (b A z i) * m A z i)
    (body0 := fun z i s => s + dotR .exact (a0 z i) (b0 z i) * m0 z i) Near.zero n fun i _ hi _ _ hF =>
      hF.plus (((((ha i hi).1.times (hb i hi).1).plus ((ha i hi).2.1.times (hb i hi).2.1)).plus ((ha i hi).2.2.times (hb i hi).2.2)).times (hm i hi))

variable {F : Arith → Z → Particles} {F0 : Z → Particles}

theorem NearP.kinetic (h : NearP n V S F F0) : Near V S (fun A z => kineticR A (F A z)) (fun z => kineticR .exact (F0 z)) :=
  ((Near.lit (1 / 2)).mul (near_contract h.mass h.vel h.vel)).congr
    (fun A z hz => by show kineticR A (F A z) = _; unfold kineticR; rw [h.num A z hz])
    fun z hz => by show kineticR .exact (F0 z) = _; unfold kineticR; rw [h.num0 z hz]; rfl

theorem NearP.kinetic' (h : NearP n V S F F0) : Near V S (fun A z => kineticR .exact (F A z)) (fun z => kineticR .exact (F0 z)) :=
  ((Near.fixed (fun _ => ((1 / 2 : ℚ) : ℝ)) (B := |((1 / 2 : ℚ) : ℝ)|) fun _ _ => le_rfl).times (near_contract' h.mass h.vel h.vel)).congr
    (fun A z hz => by show kineticR .exact (F A z) = _; unfold kineticR; rw [h.num A z hz]; rfl)
    fun z hz => by show kineticR .exact (F0 z) = _; unfold kineticR; rw [h.num0 z hz]; rfl

theorem NearP.potential (h : NearP n V S F F0) (hap : Apart n S F0) (G : ℝ) : Near V S (fun A z => potentialR A G (F A z)) (fun z => potentialR .exact G (F0 z)) := by
  have key : Near V S (fun A z => forLoop 0 n (fun i e => forLoop (i + 1) n (fun j e =>
      A.sub e (A.div (A.mul ((F A z).mass i) ((F A z).mass j)) (norm A (subV A ((F A z).pos i) ((F A z).pos j))))) e) 0)
      (fun z => forLoop 0 n (fun i e => forLoop (i + 1) n (fun j e =>
      e - (F0 z).mass i * (F0 z).mass j / norm .exact (subV .exact ((F0 z).pos i) ((F0 z).pos j))) e) 0) :=
    Near.loop (body := fun A z i e => forLoop (i + 1) n (fun j e =>
      A.sub e (A.div (A.mul ((F A z).mass i) ((F A z).mass j)) (norm A (subV A ((F A z).pos i) ((F A z).pos j))))) e)
      (body0 := fun z i e => forLoop (i + 1) n (fun j e =>
      e - (F0 z).mass i * (F0 z).mass j / norm .exact (subV .exact ((F0 z).pos i) ((F0 z).pos j))) e) Near.zero n fun i _ hi _ _ hG => Near.loop
        (body := fun A z j e => A.sub e (A.div (A.mul ((F A z).mass i) ((F A z).mass j)) (norm A (subV A ((F A z).pos i) ((F A z).pos j)))))
        (body0 := fun z j e => e - (F0 z).mass i * (F0 z).mass j / norm .exact (subV .exact ((F0 z).pos i) ((F0 z).pos j))) hG n fun j hj1 hj _ _ hG' => by
          obtain ⟨c, hc, away⟩ := hap i j (by omega) hj
          have away' : ∀ z ∈ S, c ≤ sq (subV .exact ((F0 z).pos i) ((F0 z).pos j)) := fun z hz => by
            have h1 := away z hz
            have h2 : sq (subV .exact ((F0 z).pos i) ((F0 z).pos j)) = sq ((F0 z).pos j - (F0 z).pos i) := by
              rw [subV_exact]
              simp only [sq, V3.sub_x, V3.sub_y, V3.sub_z]
              ring
            rwa [h2]
          have hd := (h.pos i hi).sub (h.pos j hj)
          have hr := near_norm hd hc away'
          have hs : 0 < Real.sqrt c := Real.sqrt_pos.2 hc
          exact hG'.sub (((h.mass i hi).mul (h.mass j hj)).div hr hs fun z hz => by
            have : Real.sqrt c ≤ norm .exact (subV .exact ((F0 z).pos i) ((F0 z).pos j)) := Real.sqrt_le_sqrt (away' z hz)
            exact this.trans (le_abs_self _))
  refine (key.mul (Near.fixed (fun _ => G) (B := |G|) fun _ _ => le_rfl)).congr (fun A z hz => ?_) fun z hz => ?_
  · show potentialR A G (F A z) = _
    unfold potentialR
    rw [h.num A z hz]
  · show potentialR .exact G (F0 z) = _
    unfold potentialR
    rw [h.num0 z hz]
    rfl

/-! ### one step -/

/-- what rounding does to the state of a regularised system; of the two constants only the one that is used matters -/
structure NearR (n : Nat) (type : ReguType) (V : ℝ → Z → Prop) (S : Set Z) (F : Arith → Z → ReguSys) (F0 : Z → ReguSys) : Prop where
  P : NearP n V S (fun A z => (F A z).P) (fun z => (F0 z).P)
  time : Near V S (fun A z => (F A z).time) (fun z => (F0 z).time)
  omega : type = .ttl → Near V S (fun A z => (F A z).R.omega) (fun z => (F0 z).R.omega)
  bindE : type = .logH → Near V S (fun A z => (F A z).R.bindE) (fun z => (F0 z).R.bindE)

/-- the two factors that the steps are divided by -/
noncomputable def posScale (type : ReguType) (s : ReguSys) : ℝ := match type with
  | .logH => s.R.bindE + kineticR .exact s.P
  | .ttl => s.R.omega
  | .none => 1

variable {F : Arith → Z → ReguSys} {F0 : Z → ReguSys} {type : ReguType}

theorem NearR.posTime (h : NearR n type V S F F0) (hty : type ≠ .none) {c : ℝ} (hc : 0 < c) (away : ∀ z ∈ S, c ≤ |posScale type (F0 z)|) {d : Arith → Z → ℝ} {d0 : Z → ℝ}
    (hd : Near V S d d0) : Near V S (fun A z => (posTimeR A type (d A z) (F A z)).2) (fun z => (posTimeR .exact type (d0 z) (F0 z)).2) := by
  cases type with
  | logH => exact hd.div ((h.bindE rfl).add h.P.kinetic) hc away
  | ttl => exact hd.div (h.omega rfl) hc away
  | none => exact absurd rfl hty

theorem NearR.velTime (h : NearR n type V S F F0) (G : ℝ) (hap : Apart n S (fun z => (F0 z).P)) (hty : type ≠ .none) {c : ℝ} (hc : 0 < c)
    (away : ∀ z ∈ S, c ≤ |potentialR .exact G (F0 z).P|) {d : Arith → Z → ℝ} {d0 : Z → ℝ}
    (hd : Near V S d d0) : Near V S (fun A z => (velTimeR A G type (d A z) (F A z)).2) (fun z => (velTimeR .exact G type (d0 z) (F0 z)).2) := by
  have away' : ∀ z ∈ S, c ≤ |-potentialR .exact G (F0 z).P| := fun z hz => by rw [abs_neg]; exact away z hz
  cases type with
  | logH => exact hd.div (h.P.potential hap G).neg hc away'
  | ttl => exact hd.div (h.P.potential hap G).neg hc away'
  | none => exact absurd rfl hty

theorem posTimeR_keeps (A : Arith) (type : ReguType) (h : ℝ) (s : ReguSys) : (posTimeR A type h s).1.omega = s.R.omega ∧ (posTimeR A type h s).1.bindE = s.R.bindE := by
  cases type <;> exact ⟨rfl, rfl⟩

theorem velTimeR_keeps (A : Arith) (G : ℝ) (type : ReguType) (h : ℝ) (s : ReguSys) :
    (velTimeR A G type h s).1.omega = s.R.omega ∧ (velTimeR A G type h s).1.bindE = s.R.bindE := by
  cases type <;> exact ⟨rfl, rfl⟩

theorem NearR.drift (h : NearR n type V S F F0) (hty : type ≠ .none) {c : ℝ} (hc : 0 < c) (away : ∀ z ∈ S, c ≤ |posScale type (F0 z)|) {d : Arith → Z → ℝ} {d0 : Z → ℝ}
    (hd : Near V S d d0) : NearR n type V S (fun A z => driftR A type (d A z) (F A z)) (fun z => driftR .exact type (d0 z) (F0 z)) where
  P := { num := h.P.num
         num0 := h.P.num0
         mass := h.P.mass
         vel := h.P.vel
         pos := (near_advance h.P.pos h.P.vel (h.posTime hty hc away hd)).congr (fun A z hz => by
           show Rounded.advance A (F A z).P.num _ _ _ = _
           rw [h.P.num A z hz]) fun z hz => by
           show Rounded.advance .exact (F0 z).P.num _ _ _ = _
           rw [h.P.num0 z hz] }
  time := h.time.add (h.posTime hty hc away hd)
  omega := fun e => (h.omega e).congr (fun A z _ => (posTimeR_keeps A type _ _).1) fun z _ => (posTimeR_keeps .exact type _ _).1
  bindE := fun e => (h.bindE e).congr (fun A z _ => (posTimeR_keeps A type _ _).2) fun z _ => (posTimeR_keeps .exact type _ _).2

theorem near_omega {P : Arith → Z → Particles} {P0 : Z → Particles} (h : NearP n V S P P0) {a : Arith → Z → Arr (V3 ℝ)} {a0 : Z → Arr (V3 ℝ)} (ha : NearA n V S a a0)
    {t w : Arith → Z → ℝ} {t0 w0 : Z → ℝ} (ht : Near V S t t0) (hw : Near V S w w0) :
    Near V S (fun A z => omegaR A type (P A z) (a A z) (t A z) (w A z)) (fun z => omegaR .exact type (P0 z) (a0 z) (t0 z) (w0 z)) := by
  by_cases hty : type = .ttl
  · refine (hw.add ((near_contract h.mass h.vel ha).mul ht)).congr (fun A z hz => ?_) fun z hz => ?_
    · show omegaR A type (P A z) (a A z) (t A z) (w A z) = _
      unfold omegaR
      rw [if_pos hty, h.num A z hz]
    · show omegaR .exact type (P0 z) (a0 z) (t0 z) (w0 z) = _
      unfold omegaR
      rw [if_pos hty, h.num0 z hz]
      rfl
  · refine (hw.add (Near.zero.mul ht)).congr (fun A z hz => ?_) fun z hz => ?_
    · show omegaR A type (P A z) (a A z) (t A z) (w A z) = _
      unfold omegaR
      rw [if_neg hty]
    · show omegaR .exact type (P0 z) (a0 z) (t0 z) (w0 z) = _
      unfold omegaR
      rw [if_neg hty]
      rfl

theorem NearR.kick (h : NearR n type V S F F0) (G : ℝ) (hap : Apart n S (fun z => (F0 z).P)) (hty : type ≠ .none) {c : ℝ} (hc : 0 < c)
    (away : ∀ z ∈ S, c ≤ |potentialR .exact G (F0 z).P|) {d : Arith → Z → ℝ} {d0 : Z → ℝ} (hd : Near V S d d0) :
    NearR n type V S (fun A z => kickR A G type (d A z) (F A z)) (fun z => kickR .exact G type (d0 z) (F0 z)) := by
  have ht := h.velTime G hap hty hc away hd
  have hh := (Near.lit (V := V) (S := S) (1 / 2)).mul ht
  have ha := h.P.acc hap
  have hP : NearP n V S (fun A z => (kickR A G type (d A z) (F A z)).P) (fun z => (kickR .exact G type (d0 z) (F0 z)).P) :=
    { num := h.P.num
      num0 := h.P.num0
      mass := h.P.mass
      pos := h.P.pos
      vel := (near_advance h.P.vel ha ht).congr (fun A z hz => by
        show Rounded.advance A (F A z).P.num _ _ _ = _
        rw [h.P.num A z hz]) fun z hz => by
        show Rounded.advance .exact (F0 z).P.num _ _ _ = _
        rw [h.P.num0 z hz] }
  have hw := fun e => near_omega (type := type) h.P ha hh ((h.omega e).congr (F' := fun A z => (velTimeR A G type (d A z) (F A z)).1.omega)
    (F0' := fun z => (velTimeR .exact G type (d0 z) (F0 z)).1.omega) (fun A z _ => (velTimeR_keeps A G type _ _).1) fun z _ => (velTimeR_keeps .exact G type _ _).1)
  exact { P := hP
          time := h.time
          omega := fun e => near_omega (type := type) hP ha hh (hw e)
          bindE := fun e => (h.bindE e).congr (fun A z _ => (velTimeR_keeps A G type _ _).2) fun z _ => (velTimeR_keeps .exact G type _ _).2 }

theorem NearR.step (G : ℝ) (hty : type ≠ .none) {d : Z → ℝ} (hd : Near V S (fun _ => d) d) (stages : List Stage) : ∀ (F : Arith → Z → ReguSys) (F0 : Z → ReguSys), NearR n type V S F F0 →
    (∀ pre suf, stages = pre ++ suf → Apart n S (fun z => (stepR .exact G type pre (d z) (F0 z)).P) ∧
      (∃ c : ℝ, 0 < c ∧ ∀ z ∈ S, c ≤ |posScale type (stepR .exact G type pre (d z) (F0 z))|) ∧
      ∃ c : ℝ, 0 < c ∧ ∀ z ∈ S, c ≤ |potentialR .exact G (stepR .exact G type pre (d z) (F0 z)).P|) →
      NearR n type V S (fun A z => stepR A G type stages (d z) (F A z)) (fun z => stepR .exact G type stages (d z) (F0 z)) := by
  induction stages with
  | nil => exact fun F F0 h _ => h
  | cons c l ih =>
    intro F F0 h hap
    obtain ⟨a1, ⟨c1, p1, w1⟩, c2, p2, w2⟩ := hap [] (c :: l) rfl
    have h1 : NearR n type V S (fun A z => stageR A G type (d z) c (F A z)) (fun z => stageR .exact G type (d z) c (F0 z)) := by
      cases c with
      | drift c => exact h.drift hty p1 w1 ((Near.lit c).mul hd)
      | kick c => exact h.kick G a1 hty p2 w2 ((Near.lit c).mul hd)
    exact ih _ _ h1 fun pre suf e => hap (c :: pre) suf (by rw [e]; rfl)

end SpaceHub.Rounded
