import Verif.Proof.Rounded

/-
What rounding does to a step of an integrator.
-/

set_option autoImplicit false

namespace SpaceHub.Rounded
open SpaceHub V3 Force Core Integrator Sys

variable {Z : Type} {V : ℝ → Z → Prop} {S : Set Z}

/-- the same for vectors -/
def NearV (V : ℝ → Z → Prop) (S : Set Z) (F : Arith → Z → V3 ℝ) (F0 : Z → V3 ℝ) : Prop :=
  Near V S (fun A z => (F A z).x) (fun z => (F0 z).x) ∧ Near V S (fun A z => (F A z).y) (fun z => (F0 z).y) ∧
    Near V S (fun A z => (F A z).z) (fun z => (F0 z).z)

/-- the same for the first `n` entries of an array -/
def NearA (n : Nat) (V : ℝ → Z → Prop) (S : Set Z) (F : Arith → Z → Arr (V3 ℝ)) (F0 : Z → Arr (V3 ℝ)) : Prop :=
  ∀ k, k < n → NearV V S (fun A z => F A z k) (fun z => F0 z k)

theorem NearV.add {F G : Arith → Z → V3 ℝ} {F0 G0 : Z → V3 ℝ} (hF : NearV V S F F0) (hG : NearV V S G G0) :
    NearV V S (fun A z => addV A (F A z) (G A z)) (fun z => addV .exact (F0 z) (G0 z)) :=
  ⟨hF.1.add hG.1, hF.2.1.add hG.2.1, hF.2.2.add hG.2.2⟩

theorem NearV.sub {F G : Arith → Z → V3 ℝ} {F0 G0 : Z → V3 ℝ} (hF : NearV V S F F0) (hG : NearV V S G G0) :
    NearV V S (fun A z => subV A (F A z) (G A z)) (fun z => subV .exact (F0 z) (G0 z)) :=
  ⟨hF.1.sub hG.1, hF.2.1.sub hG.2.1, hF.2.2.sub hG.2.2⟩

theorem NearV.mul {F : Arith → Z → V3 ℝ} {F0 : Z → V3 ℝ} {c : Arith → Z → ℝ} {c0 : Z → ℝ} (hF : NearV V S F F0) (hc : Near V S c c0) :
    NearV V S (fun A z => mulV A (F A z) (c A z)) (fun z => mulV .exact (F0 z) (c0 z)) :=
  ⟨hF.1.mul hc, hF.2.1.mul hc, hF.2.2.mul hc⟩

theorem NearV.congr {F F' : Arith → Z → V3 ℝ} {F0 F0' : Z → V3 ℝ} (h : NearV V S F F0) (e : ∀ A, ∀ z ∈ S, F' A z = F A z) (e0 : ∀ z ∈ S, F0' z = F0 z) :
    NearV V S F' F0' :=
  ⟨h.1.congr (fun A z hz => by rw [e A z hz]) fun z hz => by rw [e0 z hz], h.2.1.congr (fun A z hz => by rw [e A z hz]) fun z hz => by rw [e0 z hz],
    h.2.2.congr (fun A z hz => by rw [e A z hz]) fun z hz => by rw [e0 z hz]⟩

theorem NearA.congr {n : Nat} {F F' : Arith → Z → Arr (V3 ℝ)} {F0 F0' : Z → Arr (V3 ℝ)} (h : NearA n V S F F0) (e : ∀ A, ∀ z ∈ S, F' A z = F A z)
    (e0 : ∀ z ∈ S, F0' z = F0 z) : NearA n V S F' F0' :=
  fun k hk => (h k hk).congr (fun A z hz => by rw [e A z hz]) fun z hz => by rw [e0 z hz]

theorem NearA.set {n i : Nat} {F : Arith → Z → Arr (V3 ℝ)} {F0 : Z → Arr (V3 ℝ)} {v : Arith → Z → V3 ℝ} {v0 : Z → V3 ℝ} (hF : NearA n V S F F0)
    (hv : NearV V S v v0) : NearA n V S (fun A z => (F A z).set i (v A z)) (fun z => (F0 z).set i (v0 z)) := by
  intro k hk
  by_cases h : k = i
  · exact hv.congr (fun A z _ => by simp [Arr.set, h]) fun z _ => by simp [Arr.set, h]
  · exact (hF k hk).congr (fun A z _ => by simp [Arr.set, h]) fun z _ => by simp [Arr.set, h]

theorem NearA.zero (n : Nat) : NearA n V S (fun _ _ _ => 0) (fun _ _ => 0) := fun _ _ =>
  ⟨.fixed (fun _ => 0) (B := 0) (by simp), .fixed (fun _ => 0) (B := 0) (by simp), .fixed (fun _ => 0) (B := 0) (by simp)⟩

theorem NearA.loop {n lo : Nat} {body : Arith → Z → Nat → Arr (V3 ℝ) → Arr (V3 ℝ)} {body0 : Z → Nat → Arr (V3 ℝ) → Arr (V3 ℝ)}
    {init : Arith → Z → Arr (V3 ℝ)} {init0 : Z → Arr (V3 ℝ)} (h0 : NearA n V S init init0) :
    ∀ hi, (∀ i, lo ≤ i → i < hi → ∀ F F0, NearA n V S F F0 → NearA n V S (fun A z => body A z i (F A z)) (fun z => body0 z i (F0 z))) →
      NearA n V S (fun A z => forLoop lo hi (body A z) (init A z)) (fun z => forLoop lo hi (body0 z) (init0 z)) := by
  intro hi
  induction hi with
  | zero => intro _; exact h0.congr (fun A z _ => forLoop_self _ _ (Nat.zero_le _) _ _) fun z _ => forLoop_self _ _ (Nat.zero_le _) _ _
  | succ hi ih =>
    intro h
    by_cases hle : lo ≤ hi
    · exact (h hi hle (by omega) _ _ (ih fun i h1 h2 => h i h1 (by omega))).congr (fun A z _ => forLoop_succ _ _ hle _ _) fun z _ => forLoop_succ _ _ hle _ _
    · exact h0.congr (fun A z _ => forLoop_self _ _ (by omega) _ _) fun z _ => forLoop_self _ _ (by omega) _ _

/-- square of the length -/
def sq (a : V3 ℝ) : ℝ := a.x * a.x + a.y * a.y + a.z * a.z

theorem near_norm {dr : Arith → Z → V3 ℝ} {dr0 : Z → V3 ℝ} (hd : NearV V S dr dr0) {c : ℝ} (hc : 0 < c) (away : ∀ z ∈ S, c ≤ sq (dr0 z)) :
    Near V S (fun A z => norm A (dr A z)) (fun z => norm .exact (dr0 z)) :=
  (((hd.1.mul hd.1).add (hd.2.1.mul hd.2.1)).add (hd.2.2.mul hd.2.2)).sqrt hc away

theorem near_force {n i j : Nat} (hi : i < n) (hj : j < n) {m : Arith → Z → Arr ℝ} {m0 : Z → Arr ℝ} (hm : ∀ k, k < n → Near V S (fun A z => m A z k) (fun z => m0 z k))
    {dr : Arith → Z → V3 ℝ} {dr0 : Z → V3 ℝ} (hd : NearV V S dr dr0) {c : ℝ} (hc : 0 < c) (away : ∀ z ∈ S, c ≤ sq (dr0 z)) {F : Arith → Z → Arr (V3 ℝ)}
    {F0 : Z → Arr (V3 ℝ)} (hF : NearA n V S F F0) :
    NearA n V S (fun A z => force A (m A z) (dr A z) i j (F A z)) (fun z => force .exact (m0 z) (dr0 z) i j (F0 z)) := by
  have hr := near_norm hd hc away
  have hs : 0 < Real.sqrt c := Real.sqrt_pos.2 hc
  have h3 : Near V S (fun A z => A.div 1 (A.mul (A.mul (norm A (dr A z)) (norm A (dr A z))) (norm A (dr A z))))
      (fun z => 1 / (norm .exact (dr0 z) * norm .exact (dr0 z) * norm .exact (dr0 z))) := by
    refine (Near.fixed (fun _ => (1 : ℝ)) (B := 1) (by simp)).div ((hr.mul hr).mul hr) (c := Real.sqrt c * Real.sqrt c * Real.sqrt c) (by positivity) fun z hz => ?_
    have h : Real.sqrt c ≤ norm .exact (dr0 z) := Real.sqrt_le_sqrt (away z hz)
    show _ ≤ |norm .exact (dr0 z) * norm .exact (dr0 z) * norm .exact (dr0 z)|
    have h0 := hs.le.trans h
    rw [abs_of_nonneg (by positivity)]
    gcongr
  have hv : ∀ k, k < n → NearV V S (fun A z =>
      (⟨A.mul (A.mul (dr A z).x (A.div 1 (A.mul (A.mul (norm A (dr A z)) (norm A (dr A z))) (norm A (dr A z))))) (m A z k),
        A.mul (A.mul (dr A z).y (A.div 1 (A.mul (A.mul (norm A (dr A z)) (norm A (dr A z))) (norm A (dr A z))))) (m A z k),
        A.mul (A.mul (dr A z).z (A.div 1 (A.mul (A.mul (norm A (dr A z)) (norm A (dr A z))) (norm A (dr A z))))) (m A z k)⟩ : V3 ℝ))
      (fun z => (⟨(dr0 z).x * (1 / (norm .exact (dr0 z) * norm .exact (dr0 z) * norm .exact (dr0 z))) * m0 z k,
        (dr0 z).y * (1 / (norm .exact (dr0 z) * norm .exact (dr0 z) * norm .exact (dr0 z))) * m0 z k,
        (dr0 z).z * (1 / (norm .exact (dr0 z) * norm .exact (dr0 z) * norm .exact (dr0 z))) * m0 z k⟩ : V3 ℝ)) := fun k hk =>
    ⟨(hd.1.mul h3).mul (hm k hk), (hd.2.1.mul h3).mul (hm k hk), (hd.2.2.mul h3).mul (hm k hk)⟩
  have h1 := hF.set (i := i) ((hF i hi).add (hv j hj))
  exact h1.set (i := j) ((h1 j hj).sub (hv i hi))

/-- what rounding does to the particles of a system -/
structure NearP (n : Nat) (V : ℝ → Z → Prop) (S : Set Z) (F : Arith → Z → Particles) (F0 : Z → Particles) : Prop where
  num : ∀ A, ∀ z ∈ S, (F A z).num = n
  num0 : ∀ z ∈ S, (F0 z).num = n
  mass : ∀ k, k < n → Near V S (fun A z => (F A z).mass k) (fun z => (F0 z).mass k)
  pos : NearA n V S (fun A z => (F A z).pos) (fun z => (F0 z).pos)
  vel : NearA n V S (fun A z => (F A z).vel) (fun z => (F0 z).vel)

/-- the particles are apart, uniformly on `S` -/
def Apart (n : Nat) (S : Set Z) (f : Z → Particles) : Prop := ∀ i j, i < j → j < n → ∃ c : ℝ, 0 < c ∧ ∀ z ∈ S, c ≤ sq ((f z).pos j - (f z).pos i)

variable {n : Nat}

theorem NearP.acc {F : Arith → Z → Particles} {F0 : Z → Particles} (h : NearP n V S F F0) (hap : Apart n S F0) :
    NearA n V S (fun A z => acc A (F A z)) (fun z => acc .exact (F0 z)) := by
  have key : NearA n V S (fun A z => forLoop 0 n (fun i a => forLoop (i + 1) n (fun j a =>
      force A (F A z).mass (subV A ((F A z).pos j) ((F A z).pos i)) i j a) a) (fun _ => 0))
      (fun z => forLoop 0 n (fun i a => forLoop (i + 1) n (fun j a =>
      force .exact (F0 z).mass (subV .exact ((F0 z).pos j) ((F0 z).pos i)) i j a) a) (fun _ => 0)) :=
    NearA.loop (body := fun A z i a => forLoop (i + 1) n (fun j a => force A (F A z).mass (subV A ((F A z).pos j) ((F A z).pos i)) i j a) a)
      (body0 := fun z i a => forLoop (i + 1) n (fun j a => force .exact (F0 z).mass (subV .exact ((F0 z).pos j) ((F0 z).pos i)) i j a) a)
      (NearA.zero n) n fun i _ hi G G0 hG => NearA.loop
        (body := fun A z j a => force A (F A z).mass (subV A ((F A z).pos j) ((F A z).pos i)) i j a)
        (body0 := fun z j a => force .exact (F0 z).mass (subV .exact ((F0 z).pos j) ((F0 z).pos i)) i j a) hG n fun j hj1 hj G' G0' hG' => by
          obtain ⟨c, hc, away⟩ := hap i j (by omega) hj
          exact near_force (m := fun A z => (F A z).mass) (m0 := fun z => (F0 z).mass) hi hj h.mass ((h.pos j hj).sub (h.pos i hi)) hc away hG'
  refine key.congr (fun A z hz => ?_) fun z hz => ?_
  · show Rounded.acc A (F A z) = _
    unfold Rounded.acc
    rw [h.num A z hz]
  · show Rounded.acc .exact (F0 z) = _
    unfold Rounded.acc
    rw [h.num0 z hz]

theorem near_advance {var inc : Arith → Z → Arr (V3 ℝ)} {var0 inc0 : Z → Arr (V3 ℝ)} {h : Arith → Z → ℝ} {h0 : Z → ℝ} (hv : NearA n V S var var0)
    (hi : NearA n V S inc inc0) (hh : Near V S h h0) :
    NearA n V S (fun A z => advance A n (var A z) (inc A z) (h A z)) (fun z => advance .exact n (var0 z) (inc0 z) (h0 z)) :=
  NearA.loop (body := fun A z i v => v.set i (addV A (v i) (mulV A (inc A z i) (h A z))))
    (body0 := fun z i v => v.set i (addV .exact (v i) (mulV .exact (inc0 z i) (h0 z)))) hv n fun i _ h2 _ _ hG =>
      hG.set ((hG i h2).add ((hi i h2).mul hh))

/-- what rounding does to the state of a system -/
structure NearS (n : Nat) (V : ℝ → Z → Prop) (S : Set Z) (F : Arith → Z → Simple) (F0 : Z → Simple) : Prop where
  P : NearP n V S (fun A z => (F A z).P) (fun z => (F0 z).P)
  time : Near V S (fun A z => (F A z).time) (fun z => (F0 z).time)

variable {F : Arith → Z → Simple} {F0 : Z → Simple}

theorem NearS.drift (h : NearS n V S F F0) {d : Arith → Z → ℝ} {d0 : Z → ℝ} (hd : Near V S d d0) :
    NearS n V S (fun A z => drift A (d A z) (F A z)) (fun z => drift .exact (d0 z) (F0 z)) where
  P := { num := h.P.num
         num0 := h.P.num0
         mass := h.P.mass
         vel := h.P.vel
         pos := (near_advance h.P.pos h.P.vel hd).congr (fun A z hz => by
           show Rounded.advance A (F A z).P.num _ _ _ = _
           rw [h.P.num A z hz]) fun z hz => by
           show Rounded.advance .exact (F0 z).P.num _ _ _ = _
           rw [h.P.num0 z hz] }
  time := h.time.add hd

theorem NearS.kick (h : NearS n V S F F0) (hap : Apart n S (fun z => (F0 z).P)) {d : Arith → Z → ℝ} {d0 : Z → ℝ} (hd : Near V S d d0) :
    NearS n V S (fun A z => kick A (d A z) (F A z)) (fun z => kick .exact (d0 z) (F0 z)) where
  P := { num := h.P.num
         num0 := h.P.num0
         mass := h.P.mass
         pos := h.P.pos
         vel := (near_advance h.P.vel (h.P.acc hap) hd).congr (fun A z hz => by
           show Rounded.advance A (F A z).P.num _ _ _ = _
           rw [h.P.num A z hz]) fun z hz => by
           show Rounded.advance .exact (F0 z).P.num _ _ _ = _
           rw [h.P.num0 z hz] }
  time := h.time

theorem NearS.step {d : Z → ℝ} (hd : Near V S (fun _ => d) d) (stages : List Stage) : ∀ (F : Arith → Z → Simple) (F0 : Z → Simple), NearS n V S F F0 →
    (∀ pre suf, stages = pre ++ suf → Apart n S (fun z => (step .exact pre (d z) (F0 z)).P)) →
      NearS n V S (fun A z => step A stages (d z) (F A z)) (fun z => step .exact stages (d z) (F0 z)) := by
  induction stages with
  | nil => exact fun F F0 h _ => h
  | cons c l ih =>
    intro F F0 h hap
    have h1 : NearS n V S (fun A z => stage A (d z) c (F A z)) (fun z => stage .exact (d z) c (F0 z)) := by
      cases c with
      | drift c => exact h.drift ((Near.lit c).mul hd)
      | kick c => exact h.kick (hap [] (.kick c :: l) rfl) ((Near.lit c).mul hd)
    exact ih _ _ h1 fun pre suf e => hap (c :: pre) suf (by rw [e]; rfl)

/-- one constant for all entries -/
theorem NearA.uniform {G : Arith → Z → Arr (V3 ℝ)} {G0 : Z → Arr (V3 ℝ)} : ∀ n, NearA n V S G G0 → ∃ C u0 : ℝ, 0 ≤ C ∧ 0 < u0 ∧
    ∀ A u, Accurate A u → 0 ≤ u → u ≤ u0 → ∀ z ∈ S, V u z → ∀ k, k < n →
    |(G A z k).x - (G0 z k).x| ≤ C * u ∧ |(G A z k).y - (G0 z k).y| ≤ C * u ∧ |(G A z k).z - (G0 z k).z| ≤ C * u := by
  intro n
  induction n with
  | zero => intro _; exact ⟨0, 1, le_rfl, one_pos, fun _ _ _ _ _ _ _ _ k hk => absurd hk (by omega)⟩
  | succ n ih =>
    intro h
    obtain ⟨C, u0, hC, hu, key⟩ := ih fun k hk => h k (by omega)
    obtain ⟨⟨_, C1, u1, _, hC1, p1, _, _, c1⟩, ⟨_, C2, u2, _, hC2, p2, _, _, c2⟩, ⟨_, C3, u3, _, hC3, p3, _, _, c3⟩⟩ := h n (by omega)
    refine ⟨C + (C1 + (C2 + C3)), min u0 (min u1 (min u2 u3)), by positivity, lt_min hu (lt_min p1 (lt_min p2 p3)), fun A u hA h0 hle z hz hv k hk => ?_⟩
    have l0 := hle.trans (min_le_left _ _)
    have l1 := (hle.trans (min_le_right _ _)).trans (min_le_left _ _)
    have l2 := ((hle.trans (min_le_right _ _)).trans (min_le_right _ _)).trans (min_le_left _ _)
    have l3 := ((hle.trans (min_le_right _ _)).trans (min_le_right _ _)).trans (min_le_right _ _)
    have w0 : C * u ≤ (C + (C1 + (C2 + C3))) * u := mul_le_mul_of_nonneg_right (by linarith) h0
    have w1 : C1 * u ≤ (C + (C1 + (C2 + C3))) * u := mul_le_mul_of_nonneg_right (by linarith) h0
    have w2 : C2 * u ≤ (C + (C1 + (C2 + C3))) * u := mul_le_mul_of_nonneg_right (by linarith) h0
    have w3 : C3 * u ≤ (C + (C1 + (C2 + C3))) * u := mul_le_mul_of_nonneg_right (by linarith) h0
    by_cases hk' : k < n
    · obtain ⟨a, b, c⟩ := key A u hA h0 l0 z hz hv k hk'
      exact ⟨a.trans w0, b.trans w0, c.trans w0⟩
    · obtain rfl : k = n := by omega
      exact ⟨(c1 A u hA h0 l1 z hz hv).trans w1, (c2 A u hA h0 l2 z hz hv).trans w2, (c3 A u hA h0 l3 z hz hv).trans w3⟩

end SpaceHub.Rounded
