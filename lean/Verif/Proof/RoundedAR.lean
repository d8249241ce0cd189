import Verif.Model.RoundedAR
import Verif.Proof.RoundedChainRun
import Verif.Proof.RoundedReguRun

/-
What rounding does to a step of an ARchain system.
-/

set_option autoImplicit false

namespace SpaceHub.Rounded
open SpaceHub V3 Force Core Integrator Spec Sys Props Converge

variable {Z : Type} {V : ℝ → Z → Prop} {S : Set Z} {n : Nat} {σ τ : Arr Nat}

/-- the members that a plain system has too -/
def simplePart (s : ReguSys) : Simple := { P := s.P, time := s.time, aux := s.aux, inc := s.inc, sync := s.sync }

/-- the members that a regularised system has too -/
def reguPart (s : ARSys) : ReguSys := { P := s.P, time := s.time, aux := s.aux, R := s.R, inc := s.inc, sync := s.sync }

/-! ### the potential energy along the chain -/

/-- the chain loops without rounding -/
noncomputable def pot0 (G : ℝ) (n : Nat) (σ : Arr Nat) (P : Particles) : ℝ :=
  let C : Arr (V3 ℝ) := fun i => if i + 1 < n then P.pos (σ (i + 1)) - P.pos (σ i) else P.pos (σ 0)
  forLoop 0 n (fun i e => forLoop (i + 3) n (fun j e => e - P.mass (σ i) * P.mass (σ j) / norm .exact (subV .exact (P.pos (σ j)) (P.pos (σ i)))) e)
    (forLoop 0 (n - 2) (fun i e => e - P.mass (σ i) * P.mass (σ (i + 2)) / norm .exact (addV .exact (C i) (C (i + 1))))
      (forLoop 0 (n - 1) (fun i e => e - P.mass (σ i) * P.mass (σ (i + 1)) / norm .exact (C i)) 0)) * G

theorem pot0_eq (G : ℝ) (hn : 2 ≤ n) (hi : IsIndex n σ) (P : Particles) (hP : P.num = n) : pot0 G n σ P = potentialR .exact G P := by
  subst hP
  have h1 := potentialChain_eq G P ⟨fun i => if i + 1 < P.num then P.pos (σ (i + 1)) - P.pos (σ i) else P.pos (σ 0), fun _ => 0, σ⟩ hn hi
    ⟨fun i h => if_pos h, if_neg (show ¬(P.num - 1 + 1 < P.num) by omega)⟩
  rw [(C115_exact G P _ hn).2.2.2.1] at h1
  have h2 : potentialR .exact G P = potential G P.num P.mass P.pos := potentialDirect_eq G P
  rw [h2]
  exact Res.ok.inj h1

theorem NearC.toP {F : Arith → Z → ChainSys} {F0 : Z → Simple} (h : NearC n V S σ F F0) : NearP n V S (fun A z => (F A z).P) (fun z => (F0 z).P) :=
  ⟨h.num, h.num0, h.mass, h.pos, h.vel⟩

/-- one summand -/
theorem near_summand {m1 m2 : Arith → Z → ℝ} {m10 m20 : Z → ℝ} (h1 : Near V S m1 m10) (h2 : Near V S m2 m20) {d : Arith → Z → V3 ℝ} {d0 : Z → V3 ℝ} (hd : NearV V S d d0)
    {b : ℝ} (hb : 0 < b) (away : ∀ z ∈ S, b ≤ sq (d0 z)) {e : Arith → Z → ℝ} {e0 : Z → ℝ} (he : Near V S e e0) :
    Near V S (fun A z => A.sub (e A z) (A.div (A.mul (m1 A z) (m2 A z)) (norm A (d A z)))) (fun z => e0 z - m10 z * m20 z / norm .exact (d0 z)) := by
  have hs : 0 < Real.sqrt b := Real.sqrt_pos.2 hb
  exact he.sub ((h1.mul h2).div (near_norm hd hb away) hs fun z hz => by
    have : Real.sqrt b ≤ norm .exact (d0 z) := Real.sqrt_le_sqrt (away z hz)
    exact this.trans (le_abs_self _))

theorem NearC.potential {F : Arith → Z → ChainSys} {F0 : Z → Simple} (hn : 2 ≤ n) (hi : IsIndex n σ) (h : NearC n V S σ F F0) (hap : Apart n S (fun z => (F0 z).P)) (G : ℝ) :
    Near V S (fun A z => potentialChainR A G (F A z).P (F A z).view) (fun z => potentialR .exact G (F0 z).P) := by
  have C : ∀ i, i + 1 < n → NearV V S (fun A z => (F A z).cpos i) (fun z => if i + 1 < n then (F0 z).P.pos (σ (i + 1)) - (F0 z).P.pos (σ i) else (F0 z).P.pos (σ 0)) :=
    fun i hin => (h.cpos.link i hin).congr (fun _ _ _ => rfl) fun z _ => if_pos hin
  have ne : ∀ i j, i < n → j < n → i ≠ j → σ i ≠ σ j := fun i j h1 h2 hij e => hij (hi.inj i j h1 h2 e)
  have adj := Near.loop (lo := 0) (body := fun A z i e => A.sub e (A.div (A.mul ((F A z).P.mass (σ i)) ((F A z).P.mass (σ (i + 1)))) (norm A ((F A z).cpos i))))
    (body0 := fun z i e => e - (F0 z).P.mass (σ i) * (F0 z).P.mass (σ (i + 1)) /
      norm .exact (if i + 1 < n then (F0 z).P.pos (σ (i + 1)) - (F0 z).P.pos (σ i) else (F0 z).P.pos (σ 0)))
    (Near.zero (V := V) (S := S)) (n - 1) fun i _ hin _ _ hG => by
    obtain ⟨b, hb, away⟩ := hap.ne (hi.lt i (by omega)) (hi.lt (i + 1) (by omega)) (ne i (i + 1) (by omega) (by omega) (by omega))
    refine near_summand (h.mass _ (hi.lt i (by omega))) (h.mass _ (hi.lt (i + 1) (by omega))) (C i (by omega)) hb (fun z hz => ?_) hG
    rw [if_pos (by omega)]
    exact away z hz
  have skip := Near.loop (lo := 0) (body := fun A z i e => A.sub e (A.div (A.mul ((F A z).P.mass (σ i)) ((F A z).P.mass (σ (i + 2))))
      (norm A (addV A ((F A z).cpos i) ((F A z).cpos (i + 1))))))
    (body0 := fun z i e => e - (F0 z).P.mass (σ i) * (F0 z).P.mass (σ (i + 2)) /
      norm .exact (addV .exact (if i + 1 < n then (F0 z).P.pos (σ (i + 1)) - (F0 z).P.pos (σ i) else (F0 z).P.pos (σ 0))
      (if i + 1 + 1 < n then (F0 z).P.pos (σ (i + 1 + 1)) - (F0 z).P.pos (σ (i + 1)) else (F0 z).P.pos (σ 0)))) adj (n - 2) fun i _ hin _ _ hG => by
    obtain ⟨b, hb, away⟩ := hap.ne (hi.lt i (by omega)) (hi.lt (i + 2) (by omega)) (ne i (i + 2) (by omega) (by omega) (by omega))
    refine near_summand (h.mass _ (hi.lt i (by omega))) (h.mass _ (hi.lt (i + 2) (by omega))) ((C i (by omega)).add (C (i + 1) (by omega))) hb (fun z hz => ?_) hG
    have := away z hz
    rw [if_pos (by omega), if_pos (by omega), addV_exact]
    rwa [show (F0 z).P.pos (σ (i + 1)) - (F0 z).P.pos (σ i) + ((F0 z).P.pos (σ (i + 1 + 1)) - (F0 z).P.pos (σ (i + 1))) =
      (F0 z).P.pos (σ (i + 2)) - (F0 z).P.pos (σ i) by abel]
  have far := Near.loop (lo := 0) (body := fun A z i e => forLoop (i + 3) n (fun j e => A.sub e (A.div (A.mul ((F A z).P.mass (σ i)) ((F A z).P.mass (σ j)))
      (norm A (subV A ((F A z).P.pos (σ j)) ((F A z).P.pos (σ i)))))) e)
    (body0 := fun z i e => forLoop (i + 3) n (fun j e => e - (F0 z).P.mass (σ i) * (F0 z).P.mass (σ j) /
      norm .exact (subV .exact ((F0 z).P.pos (σ j)) ((F0 z).P.pos (σ i)))) e) skip n fun i _ hin _ _ hG => Near.loop
      (body := fun A z j e => A.sub e (A.div (A.mul ((F A z).P.mass (σ i)) ((F A z).P.mass (σ j))) (norm A (subV A ((F A z).P.pos (σ j)) ((F A z).P.pos (σ i))))))
      (body0 := fun z j e => e - (F0 z).P.mass (σ i) * (F0 z).P.mass (σ j) / norm .exact (subV .exact ((F0 z).P.pos (σ j)) ((F0 z).P.pos (σ i)))) hG n
      fun j hj1 hj _ _ hG' => by
        obtain ⟨b, hb, away⟩ := hap.ne (hi.lt i hin) (hi.lt j hj) (ne i j hin hj (by omega))
        exact near_summand (h.mass _ (hi.lt i hin)) (h.mass _ (hi.lt j hj)) ((h.pos _ (hi.lt j hj)).sub (h.pos _ (hi.lt i hin))) hb away hG'
  refine (far.mul (Near.fixed (fun _ => G) (B := |G|) fun _ _ => le_rfl)).congr (fun A z hz => ?_) fun z hz => ?_
  · show potentialChainR A G (F A z).P ⟨(F A z).cpos, (F A z).cvel, (F A z).index⟩ = _
    unfold potentialChainR
    rw [h.num A z hz, h.index A z hz]
  · rw [← pot0_eq G hn hi _ (h.num0 z hz)]
    rfl

/-! ### one step -/

/-- what rounding does to the state of an ARchain system with the index `σ`, next to a regularised system without rounding -/
structure NearAR (n : Nat) (type : ReguType) (V : ℝ → Z → Prop) (S : Set Z) (σ : Arr Nat) (F : Arith → Z → ARSys) (F0 : Z → ReguSys) : Prop where
  C : NearC n V S σ (fun A z => chainPart (F A z)) (fun z => simplePart (F0 z))
  omega : type = .ttl → Near V S (fun A z => (F A z).R.omega) (fun z => (F0 z).R.omega)
  bindE : type = .logH → Near V S (fun A z => (F A z).R.bindE) (fun z => (F0 z).R.bindE)

variable {F : Arith → Z → ARSys} {F0 : Z → ReguSys} {type : ReguType}

theorem posTimeAR_eq (A : Arith) (type : ReguType) (h : ℝ) (s : ARSys) : posTimeAR A type h s = posTimeR A type h (reguPart s) := rfl

theorem NearAR.regu (h : NearAR n type V S σ F F0) : NearR n type V S (fun A z => reguPart (F A z)) F0 := ⟨h.C.toP, h.C.time, h.omega, h.bindE⟩

theorem NearAR.velTime (hn : 2 ≤ n) (hi : IsIndex n σ) (h : NearAR n type V S σ F F0) (G : ℝ) (hap : Apart n S (fun z => (F0 z).P)) (hty : type ≠ .none) {c : ℝ} (hc : 0 < c)
    (away : ∀ z ∈ S, c ≤ |potentialR .exact G (F0 z).P|) {d : Arith → Z → ℝ} {d0 : Z → ℝ}
    (hd : Near V S d d0) : Near V S (fun A z => (velTimeAR A G type (d A z) (F A z)).2) (fun z => (velTimeR .exact G type (d0 z) (F0 z)).2) := by
  have away' : ∀ z ∈ S, c ≤ |-potentialR .exact G (F0 z).P| := fun z hz => by rw [abs_neg]; exact away z hz
  have hp : Near V S (fun A z => potentialChainR A G (F A z).P (F A z).view) (fun z => potentialR .exact G (F0 z).P) := h.C.potential hn hi hap G
  cases type with
  | logH => exact hd.div hp.neg hc away'
  | ttl => exact hd.div hp.neg hc away'
  | none => exact absurd rfl hty

theorem velTimeAR_keeps (A : Arith) (G : ℝ) (type : ReguType) (h : ℝ) (s : ARSys) :
    (velTimeAR A G type h s).1.omega = s.R.omega ∧ (velTimeAR A G type h s).1.bindE = s.R.bindE := by
  cases type <;> exact ⟨rfl, rfl⟩

theorem NearAR.drift (hn : 2 ≤ n) (hi : IsIndex n σ) (h : NearAR n type V S σ F F0) (hty : type ≠ .none) {c : ℝ} (hc : 0 < c)
    (away : ∀ z ∈ S, c ≤ |posScale type (F0 z)|) {d : Arith → Z → ℝ} {d0 : Z → ℝ} (hd : Near V S d d0) :
    NearAR n type V S σ (fun A z => driftAR A type (d A z) (F A z)) (fun z => driftR .exact type (d0 z) (F0 z)) where
  C := h.C.drift hn hi (h.regu.posTime hty hc away hd)
  omega := fun e => (h.omega e).congr (fun A _ _ => (posTimeR_keeps A type _ (reguPart _)).1) fun _ _ => (posTimeR_keeps .exact type _ _).1
  bindE := fun e => (h.bindE e).congr (fun A _ _ => (posTimeR_keeps A type _ (reguPart _)).2) fun _ _ => (posTimeR_keeps .exact type _ _).2

theorem chainPart_kick (A : Arith) (G : ℝ) (type : ReguType) (h : ℝ) (s : ARSys) :
    chainPart (kickAR A G type h s) = kickC A (velTimeAR A G type h s).2 (chainPart s) := rfl

theorem simplePart_kick (A : Arith) (G : ℝ) (type : ReguType) (h : ℝ) (s : ReguSys) :
    simplePart (kickR A G type h s) = Rounded.kick A (velTimeR A G type h s).2 (simplePart s) := rfl

theorem kickAR_omega (A : Arith) (G : ℝ) (type : ReguType) (h : ℝ) (s : ARSys) : (kickAR A G type h s).R.omega =
    omegaR A type (kickAR A G type h s).P (accChain A (chainPart s)) (A.mul (A.lit (1 / 2)) (velTimeAR A G type h s).2)
      (omegaR A type s.P (accChain A (chainPart s)) (A.mul (A.lit (1 / 2)) (velTimeAR A G type h s).2) s.R.omega) := by
  rw [← (velTimeAR_keeps A G type h s).1]; rfl

theorem kickR_omega (A : Arith) (G : ℝ) (type : ReguType) (h : ℝ) (s : ReguSys) : (kickR A G type h s).R.omega =
    omegaR A type (kickR A G type h s).P (acc A s.P) (A.mul (A.lit (1 / 2)) (velTimeR A G type h s).2)
      (omegaR A type s.P (acc A s.P) (A.mul (A.lit (1 / 2)) (velTimeR A G type h s).2) s.R.omega) := by
  rw [← (velTimeR_keeps A G type h s).1]; rfl

theorem kickAR_bindE (A : Arith) (G : ℝ) (type : ReguType) (h : ℝ) (s : ARSys) : (kickAR A G type h s).R.bindE = s.R.bindE :=
  (velTimeAR_keeps A G type h s).2

theorem kickR_bindE (A : Arith) (G : ℝ) (type : ReguType) (h : ℝ) (s : ReguSys) : (kickR A G type h s).R.bindE = s.R.bindE :=
  (velTimeR_keeps A G type h s).2

theorem NearAR.ofKick (h : NearAR n type V S σ F F0) {G : ℝ} {d : Arith → Z → ℝ} {d0 : Z → ℝ}
    (ha : NearA n V S (fun A z => accChain A (chainPart (F A z))) (fun z => acc .exact (F0 z).P))
    (hh : Near V S (fun A z => A.mul (A.lit (1 / 2)) (velTimeAR A G type (d A z) (F A z)).2) (fun z => ((1 / 2 : ℚ) : ℝ) * (velTimeR .exact G type (d0 z) (F0 z)).2))
    (hC : NearC n V S σ (fun A z => chainPart (kickAR A G type (d A z) (F A z))) (fun z => simplePart (kickR .exact G type (d0 z) (F0 z)))) :
    NearAR n type V S σ (fun A z => kickAR A G type (d A z) (F A z)) (fun z => kickR .exact G type (d0 z) (F0 z)) := by
  have hP : NearP n V S (fun A z => (F A z).P) (fun z => (F0 z).P) := h.C.toP
  have hP' : NearP n V S (fun A z => (kickAR A G type (d A z) (F A z)).P) (fun z => (kickR .exact G type (d0 z) (F0 z)).P) := hC.toP
  refine ⟨hC, fun e => ?_, fun e => (h.bindE e).congr (fun A _ _ => kickAR_bindE A G type _ _) fun _ _ => kickR_bindE .exact G type _ _⟩
  have k := near_omega (type := type) hP' ha hh (near_omega (type := type) hP ha hh (h.omega e))
  exact k.congr (fun A z _ => kickAR_omega A G type _ _) fun z _ => kickR_omega .exact G type _ _

theorem NearAR.kick (hn : 2 ≤ n) (hi : IsIndex n σ) (h : NearAR n type V S σ F F0) (G : ℝ) (hap : Apart n S (fun z => (F0 z).P)) (hty : type ≠ .none) {c : ℝ} (hc : 0 < c)
    (away : ∀ z ∈ S, c ≤ |potentialR .exact G (F0 z).P|) {d : Arith → Z → ℝ} {d0 : Z → ℝ} (hd : Near V S d d0) :
    NearAR n type V S σ (fun A z => kickAR A G type (d A z) (F A z)) (fun z => kickR .exact G type (d0 z) (F0 z)) := by
  have ht := h.velTime hn hi G hap hty hc away hd
  have hh := (Near.lit (V := V) (S := S) (1 / 2)).mul ht
  have ha := NearC.acc hn hi h.C hap
  have hC : NearC n V S σ (fun A z => kickC A (velTimeAR A G type (d A z) (F A z)).2 (chainPart (F A z)))
      (fun z => Rounded.kick .exact (velTimeR .exact G type (d0 z) (F0 z)).2 (simplePart (F0 z))) := NearC.kick hn hi h.C hap ht
  have e1 : (fun A z => chainPart (kickAR A G type (d A z) (F A z))) = fun A z => kickC A (velTimeAR A G type (d A z) (F A z)).2 (chainPart (F A z)) :=
    funext fun A => funext fun z => chainPart_kick A G type _ _
  have e2 : (fun z => simplePart (kickR .exact G type (d0 z) (F0 z))) = fun z => Rounded.kick .exact (velTimeR .exact G type (d0 z) (F0 z)).2 (simplePart (F0 z)) :=
    funext fun z => simplePart_kick .exact G type _ _
  rw [← e1, ← e2] at hC
  exact NearAR.ofKick h ha hh hC

theorem NearAR.step (hn : 2 ≤ n) (hi : IsIndex n σ) (G : ℝ) (hty : type ≠ .none) {d : Z → ℝ} (hd : Near V S (fun _ => d) d) (stages : List Stage) :
    ∀ (F : Arith → Z → ARSys) (F0 : Z → ReguSys), NearAR n type V S σ F F0 →
    (∀ pre suf, stages = pre ++ suf → Apart n S (fun z => (stepR .exact G type pre (d z) (F0 z)).P) ∧
      (∃ c : ℝ, 0 < c ∧ ∀ z ∈ S, c ≤ |posScale type (stepR .exact G type pre (d z) (F0 z))|) ∧
      ∃ c : ℝ, 0 < c ∧ ∀ z ∈ S, c ≤ |potentialR .exact G (stepR .exact G type pre (d z) (F0 z)).P|) →
      NearAR n type V S σ (fun A z => stepAR A G type stages (d z) (F A z)) (fun z => stepR .exact G type stages (d z) (F0 z)) := by
  induction stages with
  | nil => exact fun F F0 h _ => h
  | cons c l ih =>
    intro F F0 h hap
    obtain ⟨a1, ⟨c1, p1, w1⟩, c2, p2, w2⟩ := hap [] (c :: l) rfl
    have h1 : NearAR n type V S σ (fun A z => stageAR A G type (d z) c (F A z)) (fun z => stageR .exact G type (d z) c (F0 z)) := by
      cases c with
      | drift c => exact h.drift hn hi hty p1 w1 ((Near.lit c).mul hd)
      | kick c => exact h.kick hn hi G a1 hty p2 w2 ((Near.lit c).mul hd)
    exact ih _ _ h1 fun pre suf e => hap (c :: pre) suf (by rw [e]; rfl)

theorem chainPart_post (A : Arith) (τ : Arr Nat) (s : ARSys) : chainPart (postIterAR A τ s) = postIterC A τ (chainPart s) := by
  unfold postIterAR postIterC
  by_cases h : ∃ k, k < s.P.num ∧ τ k ≠ s.index k
  · rw [if_pos h, if_pos (show ∃ k, k < (chainPart s).P.num ∧ τ k ≠ (chainPart s).index k from h)]; rfl
  · rw [if_neg h, if_neg (show ¬∃ k, k < (chainPart s).P.num ∧ τ k ≠ (chainPart s).index k from h)]

theorem postIterAR_R (A : Arith) (τ : Arr Nat) (s : ARSys) : (postIterAR A τ s).R = s.R := by
  unfold postIterAR
  by_cases h : ∃ k, k < s.P.num ∧ τ k ≠ s.index k
  · rw [if_pos h]
  · rw [if_neg h]

/-- `post_iter_process` -/
theorem NearC.post' {F : Arith → Z → ChainSys} {F0 : Z → Simple} (hn : 2 ≤ n) (hi : IsIndex n σ) (ht : IsIndex n τ) (h : NearC n V S σ F F0) :
    ∃ υ, IsIndex n υ ∧ NearC n V S υ (fun A z => postIterC A τ (F A z)) F0 := by
  by_cases hne : ∃ k, k < n ∧ τ k ≠ σ k
  · exact ⟨τ, ht, h.post hn hi ht hne⟩
  · have e : ∀ A, ∀ z ∈ S, postIterC A τ (F A z) = F A z := fun A z hz => by
      unfold postIterC
      rw [if_neg]
      rw [h.num A z hz, h.index A z hz]
      exact hne
    exact ⟨σ, hi, fun A z hz => by rw [e A z hz]; exact h.num A z hz, h.num0, fun A z hz => by rw [e A z hz]; exact h.index A z hz,
      fun k hk => (h.mass k hk).congr (fun A z hz => by rw [e A z hz]) fun _ _ => rfl, h.pos.congr (fun A z hz => by rw [e A z hz]) fun _ _ => rfl,
      h.vel.congr (fun A z hz => by rw [e A z hz]) fun _ _ => rfl,
      ⟨fun i hi => (h.cpos.link i hi).congr (fun A z hz => by rw [e A z hz]) fun _ _ => rfl, h.cpos.base.congr (fun A z hz => by rw [e A z hz]) fun _ _ => rfl⟩,
      ⟨fun i hi => (h.cvel.link i hi).congr (fun A z hz => by rw [e A z hz]) fun _ _ => rfl, h.cvel.base.congr (fun A z hz => by rw [e A z hz]) fun _ _ => rfl⟩,
      h.time.congr (fun A z hz => by rw [e A z hz]) fun _ _ => rfl⟩

theorem NearAR.post (hn : 2 ≤ n) (hi : IsIndex n σ) (ht : IsIndex n τ) (h : NearAR n type V S σ F F0) :
    ∃ υ, IsIndex n υ ∧ NearAR n type V S υ (fun A z => postIterAR A τ (F A z)) F0 := by
  obtain ⟨υ, hυ, h'⟩ := h.C.post' hn hi ht
  refine ⟨υ, hυ, ?_, fun e => (h.omega e).congr (fun A z _ => by rw [postIterAR_R]) fun _ _ => rfl,
    fun e => (h.bindE e).congr (fun A z _ => by rw [postIterAR_R]) fun _ _ => rfl⟩
  have : (fun A z => chainPart (postIterAR A τ (F A z))) = fun A z => postIterC A τ (chainPart (F A z)) := by
    funext A z; exact chainPart_post A τ _
  rw [this]
  exact h'

end SpaceHub.Rounded
