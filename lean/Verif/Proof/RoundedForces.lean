import Verif.Proof.RoundedStep
import Verif.Model.RoundedForces

/-
What rounding does to a step with additional forces.
-/

set_option autoImplicit false

namespace SpaceHub.Rounded
open SpaceHub V3 Force Core Integrator Sys

variable {Z : Type} {V : ℝ → Z → Prop} {S : Set Z}

theorem Near.negate {F : Arith → Z → ℝ} {F0 : Z → ℝ} (h : Near V S F F0) : Near V S (fun A z => -F A z) (fun z => -F0 z) := by
  obtain ⟨B, C, u0, hB, hC, h0, h1, hb, hc⟩ := h
  refine ⟨B, C, u0, hB, hC, h0, h1, fun z hz => by rw [abs_neg]; exact hb z hz, fun A u hA hu hu0 z hz hv => ?_⟩
  have := hc A u hA hu hu0 z hz hv
  rwa [show -F A z - -F0 z = -(F A z - F0 z) by ring, abs_neg]

theorem Near.num (q : ℝ) : Near V S (fun _ _ => q) (fun _ => q) := .fixed (fun _ => q) (B := |q|) fun _ _ => le_rfl

theorem NearV.negate {F : Arith → Z → V3 ℝ} {F0 : Z → V3 ℝ} (h : NearV V S F F0) : NearV V S (fun A z => negV (F A z)) (fun z => negV (F0 z)) :=
  ⟨h.1.negate, h.2.1.negate, h.2.2.negate⟩

theorem NearV.div {F : Arith → Z → V3 ℝ} {F0 : Z → V3 ℝ} {r : Arith → Z → ℝ} {r0 : Z → ℝ} (hF : NearV V S F F0) (hr : Near V S r r0) {b : ℝ} (hb : 0 < b)
    (away : ∀ z ∈ S, b ≤ |r0 z|) : NearV V S (fun A z => divV A (F A z) (r A z)) (fun z => divV .exact (F0 z) (r0 z)) :=
  ⟨hF.1.div hr hb away, hF.2.1.div hr hb away, hF.2.2.div hr hb away⟩

theorem NearV.dot {F K : Arith → Z → V3 ℝ} {F0 K0 : Z → V3 ℝ} (hF : NearV V S F F0) (hK : NearV V S K K0) :
    Near V S (fun A z => dotR A (F A z) (K A z)) (fun z => dotR .exact (F0 z) (K0 z)) :=
  ((hF.1.mul hK.1).add (hF.2.1.mul hK.2.1)).add (hF.2.2.mul hK.2.2)

section
variable (G : ℝ) {c : ℝ} (hc : c ≠ 0)
include hc

theorem near_invC : Near V S (fun A _ => invC A c) (fun _ => invC .exact c) :=
  (Near.num 1).div (Near.num c) (abs_pos.2 hc) fun _ _ => le_rfl

theorem near_invC2 : Near V S (fun A _ => invC2 A c) (fun _ => invC2 .exact c) := (near_invC hc).mul (near_invC hc)

theorem near_invC5 : Near V S (fun A _ => invC5 A c) (fun _ => invC5 .exact c) := (near_invC2 hc).mul ((near_invC hc).mul (near_invC2 hc))

variable {n i j : Nat} (hi : i < n) (hj : j < n) {v : Arith → Z → Arr (V3 ℝ)} {v0 : Z → Arr (V3 ℝ)} (hv : NearA n V S v v0) {m : Arith → Z → Arr ℝ}
  {m0 : Z → Arr ℝ} (hm : ∀ k, k < n → Near V S (fun A z => m A z k) (fun z => m0 z k)) {dr dv : Arith → Z → V3 ℝ} {dr0 dv0 : Z → V3 ℝ}
  (hd : NearV V S dr dr0) (hdv : NearV V S dv dv0) {b : ℝ} (hb : 0 < b) (away : ∀ z ∈ S, b ≤ sq (dr0 z)) {F : Arith → Z → Arr (V3 ℝ)} {F0 : Z → Arr (V3 ℝ)}
  (hF : NearA n V S F F0)
include hi hj hv hm hd hdv hb away hF

theorem near_pn1 : NearA n V S (fun A z => pn1R A G c (v A z) (m A z) (dr A z) (dv A z) i j (F A z))
    (fun z => pn1R .exact G c (v0 z) (m0 z) (dr0 z) (dv0 z) i j (F0 z)) := by
  have hr2 := hd.dot hd
  have a2 : ∀ z ∈ S, b ≤ |dotR .exact (dr0 z) (dr0 z)| := fun z hz => (away z hz).trans (le_abs_self _)
  have hr := hr2.sqrt hb away
  have a1 : ∀ z ∈ S, Real.sqrt b ≤ |Real.sqrt (dotR .exact (dr0 z) (dr0 z))| := fun z hz => (Real.sqrt_le_sqrt (away z hz)).trans (le_abs_self _)
  have hs := Real.sqrt_pos.2 hb
  have hn := hd.negate.div hr hs a1
  have v1s := (hv i hi).dot (hv i hi)
  have v2s := (hv j hj).dot (hv j hj)
  have v12 := (hv i hi).dot (hv j hj)
  have nv1 := hn.dot (hv i hi)
  have nv2 := hn.dot (hv j hj)
  have g1 := ((Near.num G).mul (hm i hi)).div hr hs a1
  have g2 := ((Near.num G).mul (hm j hj)).div hr hs a1
  have lit32 : Near V S (fun A _ => A.lit (3 / 2)) (fun _ => ((3 / 2 : ℚ) : ℝ)) := Near.lit _
  have Ai := (((((v1s.negate.sub ((Near.num 2).mul v2s)).add ((Near.num 4).mul v12)).add ((lit32.mul nv2).mul nv2)).add ((Near.num 5).mul g1)).add ((Near.num 4).mul g2))
  have Aj := (((((v2s.negate.sub ((Near.num 2).mul v1s)).add ((Near.num 4).mul v12)).add ((lit32.mul nv1).mul nv1)).add ((Near.num 5).mul g2)).add ((Near.num 4).mul g1))
  have Bi := ((Near.num 4).mul nv1).sub ((Near.num 3).mul nv2)
  have Bj := ((Near.num (-4)).mul nv2).add ((Near.num 3).mul nv1)
  have co := ((Near.num G).div hr2 hb a2).mul (near_invC2 hc)
  have h1 := hF.set (i := i) ((hF i hi).add (((hn.mul Ai).sub (hdv.mul Bi)).mul (co.mul (hm j hj))))
  exact h1.set (i := j) ((h1 j hj).sub (((hn.mul Aj).sub (hdv.mul Bj)).mul (co.mul (hm i hi))))

omit hv in
theorem near_pn2p5 : NearA n V S (fun A z => pn2p5R A G c (m A z) (dr A z) (dv A z) i j (F A z))
    (fun z => pn2p5R .exact G c (m0 z) (dr0 z) (dv0 z) i j (F0 z)) := by
  have hr2 := hd.dot hd
  have hr := hr2.sqrt hb away
  have a1 : ∀ z ∈ S, Real.sqrt b ≤ |Real.sqrt (dotR .exact (dr0 z) (dr0 z))| := fun z hz => (Real.sqrt_le_sqrt (away z hz)).trans (le_abs_self _)
  have hs := Real.sqrt_pos.2 hb
  have hn := hd.negate.div hr hs a1
  have dv2 := hdv.dot hdv
  have nv := (hn.dot hdv).negate
  have g1 := ((Near.num G).mul (hm i hi)).div hr hs a1
  have g2 := ((Near.num G).mul (hm j hj)).div hr hs a1
  have f52 : Near V S (fun A _ => A.div 52 3) (fun _ => (52 / 3 : ℝ)) := (Near.num 52).div (Near.num 3) (c := 3) (by norm_num) fun _ _ => by norm_num
  have lit45 : Near V S (fun A _ => A.lit (4 / 5)) (fun _ => ((4 / 5 : ℚ) : ℝ)) := Near.lit _
  have Ai := nv.mul ((((Near.num 3).mul dv2).sub ((Near.num 6).mul g1)).add (f52.mul g2))
  have Aj := nv.mul ((((Near.num 3).mul dv2).sub ((Near.num 6).mul g2)).add (f52.mul g1))
  have Bi := (dv2.negate.add ((Near.num 2).mul g1)).sub ((Near.num 8).mul g2)
  have Bj := (dv2.negate.add ((Near.num 2).mul g2)).sub ((Near.num 8).mul g1)
  have co := (((((lit45.mul (Near.num G)).mul (Near.num G)).mul (hm i hi)).mul (hm j hj)).div (hr2.mul hr) (c := b * Real.sqrt b) (by positivity) fun z hz => by
    rw [abs_mul]
    exact mul_le_mul ((away z hz).trans (le_abs_self _)) (a1 z hz) hs.le (abs_nonneg _)).mul (near_invC5 hc)
  have h1 := hF.set (i := i) ((hF i hi).add (((hn.mul Ai).sub (hdv.mul Bi)).mul co))
  exact h1.set (i := j) ((h1 j hj).sub (((hn.mul Aj).sub (hdv.mul Bj)).mul co))

theorem near_term (t : Term) : NearA n V S (fun A z => termForce A G c t (v A z) (m A z) (dr A z) (dv A z) i j (F A z))
    (fun z => termForce .exact G c t (v0 z) (m0 z) (dr0 z) (dv0 z) i j (F0 z)) := by
  cases t with
  | pn1 => exact near_pn1 G hc hi hj hv hm hd hdv hb away hF
  | pn2p5 => exact near_pn2p5 G hc hi hj hm hd hdv hb away hF

end

variable {n : Nat} (G : ℝ) {c : ℝ} (hc : c ≠ 0)

include hc in
theorem near_termAcc (t : Term) {F : Arith → Z → Particles} {F0 : Z → Particles} (h : NearP n V S F F0) (hap : Apart n S F0) {K : Arith → Z → Arr (V3 ℝ)}
    {K0 : Z → Arr (V3 ℝ)} (hK : NearA n V S K K0) : NearA n V S (fun A z => termAcc A G c t (F A z) (K A z)) (fun z => termAcc .exact G c t (F0 z) (K0 z)) := by
  have key : NearA n V S (fun A z => forLoop 0 n (fun i a => forLoop (i + 1) n (fun j a =>
      termForce A G c t (F A z).vel (F A z).mass (subV A ((F A z).pos j) ((F A z).pos i)) (subV A ((F A z).vel j) ((F A z).vel i)) i j a) a) (K A z))
      (fun z => forLoop 0 n (fun i a => forLoop (i + 1) n (fun j a =>
      termForce .exact G c t (F0 z).vel (F0 z).mass (subV .exact ((F0 z).pos j) ((F0 z).pos i)) (subV .exact ((F0 z).vel j) ((F0 z).vel i)) i j a) a) (K0 z)) :=
    NearA.loop (body := fun A z i a => forLoop (i + 1) n (fun j a =>
        termForce A G c t (F A z).vel (F A z).mass (subV A ((F A z).pos j) ((F A z).pos i)) (subV A ((F A z).vel j) ((F A z).vel i)) i j a) a)
      (body0 := fun z i a => forLoop (i + 1) n (fun j a =>
        termForce .exact G c t (F0 z).vel (F0 z).mass (subV .exact ((F0 z).pos j) ((F0 z).pos i)) (subV .exact ((F0 z).vel j) ((F0 z).vel i)) i j a) a)
      hK n fun i _ hi L L0 hL => NearA.loop
        (body := fun A z j a => termForce A G c t (F A z).vel (F A z).mass (subV A ((F A z).pos j) ((F A z).pos i)) (subV A ((F A z).vel j) ((F A z).vel i)) i j a)
        (body0 := fun z j a =>
          termForce .exact G c t (F0 z).vel (F0 z).mass (subV .exact ((F0 z).pos j) ((F0 z).pos i)) (subV .exact ((F0 z).vel j) ((F0 z).vel i)) i j a)
        hL n fun j hj1 hj L' L0' hL' => by
          obtain ⟨b, hb, away⟩ := hap i j (by omega) hj
          exact near_term G hc hi hj h.vel (m := fun A z => (F A z).mass) (m0 := fun z => (F0 z).mass) h.mass ((h.pos j hj).sub (h.pos i hi))
            ((h.vel j hj).sub (h.vel i hi)) hb away hL' t
  refine key.congr (fun A z hz => ?_) fun z hz => ?_
  · show termAcc A G c t (F A z) _ = _
    unfold termAcc
    rw [h.num A z hz]
  · show termAcc .exact G c t (F0 z) _ = _
    unfold termAcc
    rw [h.num0 z hz]

include hc in
theorem near_velDep (fs : List Term) {F : Arith → Z → Particles} {F0 : Z → Particles} (h : NearP n V S F F0) (hap : Apart n S F0) :
    NearA n V S (fun A z => velDepX A G c fs (F A z)) (fun z => velDepX .exact G c fs (F0 z)) := by
  have key : ∀ fs : List Term, ∀ (K : Arith → Z → Arr (V3 ℝ)) (K0 : Z → Arr (V3 ℝ)), NearA n V S K K0 →
      NearA n V S (fun A z => fs.foldl (fun a t => termAcc A G c t (F A z) a) (K A z)) (fun z => fs.foldl (fun a t => termAcc .exact G c t (F0 z) a) (K0 z)) := by
    intro fs
    induction fs with
    | nil => exact fun K K0 h => h
    | cons t l ih => exact fun K K0 hK => ih _ _ (near_termAcc G hc t h hap hK)
  exact key fs _ _ (NearA.zero n)

theorem near_arrayAdd {a b : Arith → Z → Arr (V3 ℝ)} {a0 b0 : Z → Arr (V3 ℝ)} (ha : NearA n V S a a0) (hb : NearA n V S b b0) :
    NearA n V S (fun A z => arrayAddR A n (a A z) (b A z)) (fun z => arrayAddR .exact n (a0 z) (b0 z)) :=
  NearA.loop (body := fun A z i d => d.set i (addV A (a A z i) (b A z i))) (body0 := fun z i d => d.set i (addV .exact (a0 z i) (b0 z i))) (NearA.zero n) n
    fun i _ h2 _ _ hG => hG.set ((ha i h2).add (hb i h2))

/-- what rounding does to the state of a system with second velocities -/
structure NearX (n : Nat) (V : ℝ → Z → Prop) (S : Set Z) (F : Arith → Z → Simple) (F0 : Z → Simple) : Prop where
  sys : NearS n V S F F0
  aux : NearA n V S (fun A z => (F A z).aux) (fun z => (F0 z).aux)

variable {F : Arith → Z → Simple} {F0 : Z → Simple}

theorem NearX.swap (h : NearX n V S F F0) : NearP n V S (fun A z => { (F A z).P with vel := (F A z).aux }) (fun z => { (F0 z).P with vel := (F0 z).aux }) where
  num := h.sys.P.num
  num0 := h.sys.P.num0
  mass := h.sys.P.mass
  pos := h.sys.P.pos
  vel := h.aux

include hc in
theorem NearX.real (fs : List Term) (h : NearX n V S F F0) (hap : Apart n S (fun z => (F0 z).P)) {a : Arith → Z → Arr (V3 ℝ)} {a0 : Z → Arr (V3 ℝ)}
    (ha : NearA n V S a a0) {d : Arith → Z → ℝ} {d0 : Z → ℝ} (hd : Near V S d d0) :
    NearX n V S (fun A z => kickRealX A G c fs (a A z) (d A z) (F A z)) (fun z => kickRealX .exact G c fs (a0 z) (d0 z) (F0 z)) where
  aux := h.aux
  sys := {
    time := h.sys.time
    P := {
      num := h.sys.P.num
      num0 := h.sys.P.num0
      mass := h.sys.P.mass
      pos := h.sys.P.pos
      vel := (near_advance h.sys.P.vel (near_arrayAdd ha (near_velDep G hc fs h.swap hap)) hd).congr (fun A z hz => by
          show Rounded.advance A (F A z).P.num _ (arrayAddR A (F A z).P.num _ _) _ = _
          rw [h.sys.P.num A z hz]) fun z hz => by
          show Rounded.advance .exact (F0 z).P.num _ (arrayAddR .exact (F0 z).P.num _ _) _ = _
          rw [h.sys.P.num0 z hz] } }

include hc in
theorem NearX.pseudo (fs : List Term) (h : NearX n V S F F0) (hap : Apart n S (fun z => (F0 z).P)) {a : Arith → Z → Arr (V3 ℝ)} {a0 : Z → Arr (V3 ℝ)}
    (ha : NearA n V S a a0) {d : Arith → Z → ℝ} {d0 : Z → ℝ} (hd : Near V S d d0) :
    NearX n V S (fun A z => kickPseuX A G c fs (a A z) (d A z) (F A z)) (fun z => kickPseuX .exact G c fs (a0 z) (d0 z) (F0 z)) where
  sys := ⟨⟨h.sys.P.num, h.sys.P.num0, h.sys.P.mass, h.sys.P.pos, h.sys.P.vel⟩, h.sys.time⟩
  aux := (near_advance h.aux (near_arrayAdd ha (near_velDep G hc fs h.sys.P hap)) hd).congr (fun A z hz => by
          show Rounded.advance A (F A z).P.num _ (arrayAddR A (F A z).P.num _ _) _ = _
          rw [h.sys.P.num A z hz]) fun z hz => by
          show Rounded.advance .exact (F0 z).P.num _ (arrayAddR .exact (F0 z).P.num _ _) _ = _
          rw [h.sys.P.num0 z hz]

include hc in
theorem NearX.kick (fs : List Term) (h : NearX n V S F F0) (hap : Apart n S (fun z => (F0 z).P)) {d : Arith → Z → ℝ} {d0 : Z → ℝ} (hd : Near V S d d0) :
    NearX n V S (fun A z => kickX A G c fs (d A z) (F A z)) (fun z => kickX .exact G c fs (d0 z) (F0 z)) := by
  have hh : Near V S (fun A z => A.mul (A.lit (1 / 2)) (d A z)) (fun z => ((1 / 2 : ℚ) : ℝ) * d0 z) := (Near.lit _).mul hd
  have ha := h.sys.P.acc hap
  exact (((h.real G hc fs hap ha hh).pseudo G hc fs hap ha hd).real G hc fs hap ha hh)

include hc in
theorem NearX.stages (fs : List Term) {d : Z → ℝ} (hd : Near V S (fun _ => d) d) (stages : List Stage) : ∀ (F : Arith → Z → Simple) (F0 : Z → Simple),
    NearX n V S F F0 → (∀ pre suf, stages = pre ++ suf → Apart n S (fun z => (stagesX .exact G c fs pre (d z) (F0 z)).P)) →
      NearX n V S (fun A z => stagesX A G c fs stages (d z) (F A z)) (fun z => stagesX .exact G c fs stages (d z) (F0 z)) := by
  induction stages with
  | nil => exact fun F F0 h _ => h
  | cons q l ih =>
    intro F F0 h hap
    have h1 : NearX n V S (fun A z => stageX A G c fs (d z) q (F A z)) (fun z => stageX .exact G c fs (d z) q (F0 z)) := by
      cases q with
      | drift q => exact ⟨h.sys.drift ((Near.lit q).mul hd), h.aux⟩
      | kick q => exact h.kick G hc fs (hap [] (.kick q :: l) rfl) ((Near.lit q).mul hd)
    exact ih _ _ h1 fun pre suf e => hap (q :: pre) suf (by rw [e]; rfl)

end SpaceHub.Rounded
