import Verif.Proof.RoundedStep
import Verif.Proof.ChainCoord
import Verif.Model.RoundedChain
import Verif.Props.Force

/-
What rounding does to a step of a chain system.
-/

set_option autoImplicit false

namespace SpaceHub.Rounded
open SpaceHub V3 Force Core Integrator Sys

variable {Z : Type} {V : ℝ → Z → Prop} {S : Set Z}

/-! ### sums and signs without rounding -/

theorem Near.plus {F G : Arith → Z → ℝ} {F0 G0 : Z → ℝ} (hF : Near V S F F0) (hG : Near V S G G0) : Near V S (fun A z => F A z + G A z) (fun z => F0 z + G0 z) := by
  obtain ⟨B1, C1, u1, hB1, hC1, p1, q1, b1, c1⟩ := hF
  obtain ⟨B2, C2, u2, hB2, hC2, p2, q2, b2, c2⟩ := hG
  refine ⟨B1 + B2, C1 + C2, min u1 u2, by positivity, by positivity, lt_min p1 p2, (min_le_left _ _).trans q1, fun z hz => (abs_add_le _ _).trans (add_le_add (b1 z hz) (b2 z hz)),
    fun A u hA hu hu0 z hz hv => ?_⟩
  have h1 := c1 A u hA hu (hu0.trans (min_le_left _ _)) z hz hv
  have h2 := c2 A u hA hu (hu0.trans (min_le_right _ _)) z hz hv
  have := abs_add_le (F A z - F0 z) (G A z - G0 z)
  rw [show F A z + G A z - (F0 z + G0 z) = F A z - F0 z + (G A z - G0 z) by ring]
  linarith [add_mul C1 C2 u]

theorem Near.neg {F : Arith → Z → ℝ} {F0 : Z → ℝ} (hF : Near V S F F0) : Near V S (fun A z => -F A z) (fun z => -F0 z) := by
  obtain ⟨B1, C1, u1, hB1, hC1, p1, q1, b1, c1⟩ := hF
  refine ⟨B1, C1, u1, hB1, hC1, p1, q1, fun z hz => by rw [abs_neg]; exact b1 z hz, fun A u hA hu hu0 z hz hv => ?_⟩
  rw [show -F A z - -F0 z = -(F A z - F0 z) by ring, abs_neg]
  exact c1 A u hA hu hu0 z hz hv

theorem NearV.plus {F G : Arith → Z → V3 ℝ} {F0 G0 : Z → V3 ℝ} (hF : NearV V S F F0) (hG : NearV V S G G0) :
    NearV V S (fun A z => addV .exact (F A z) (G A z)) (fun z => addV .exact (F0 z) (G0 z)) :=
  ⟨hF.1.plus hG.1, hF.2.1.plus hG.2.1, hF.2.2.plus hG.2.2⟩

theorem NearV.neg {F : Arith → Z → V3 ℝ} {F0 : Z → V3 ℝ} (hF : NearV V S F F0) : NearV V S (fun A z => -F A z) (fun z => -F0 z) :=
  ⟨hF.1.neg, hF.2.1.neg, hF.2.2.neg⟩

theorem addV_exact (a b : V3 ℝ) : addV .exact a b = a + b := rfl
theorem subV_exact (a b : V3 ℝ) : subV .exact a b = a - b := rfl
theorem mulV_exact (a : V3 ℝ) (c : ℝ) : mulV .exact a c = c • a := rfl

/-! ### entries -/

theorem advanceR_apply (A : Arith) (n : Nat) (v i : Arr (V3 ℝ)) (h : ℝ) (k : Nat) : advance A n v i h k = if k < n then addV A (v k) (mulV A (i k) h) else v k := by
  have := forLoop_inv (σ := Arr (V3 ℝ)) (fun m w => ∀ k, w k = if k < m then addV A (v k) (mulV A (i k) h) else v k) 0 n (Nat.zero_le _)
    (fun i' w => w.set i' (addV A (w i') (mulV A (i i') h))) v (fun k => by simp)
    (by
      intro j w _ hj hw k
      by_cases hkj : k = j
      · subst hkj; rw [Arr.set_same, hw k, if_neg (by omega), if_pos (by omega)]
      · rw [Arr.set_other _ _ _ _ hkj, hw k]
        by_cases hk : k < j
        · rw [if_pos hk, if_pos (by omega)]
        · rw [if_neg hk, if_neg (by omega)])
  exact this k

/-- the sums along the chain -/
def partialR (A : Arith) (n : Nat) (c : Arr (V3 ℝ)) : Nat → V3 ℝ
  | 0 => c (n - 1)
  | i + 1 => addV A (partialR A n c i) (c i)

theorem toCartR_entry {A : Arith} {n : Nat} {σ : Arr Nat} (hn : 1 ≤ n) (hi : IsIndex n σ) (c x : Arr (V3 ℝ)) (i : Nat) (h : i < n) :
    toCartR A n c x σ (σ i) = partialR A n c i := by
  have := forLoop_inv (σ := Arr (V3 ℝ)) (fun m w => ∀ i, i < m → w (σ i) = partialR A n c i) 1 n hn
    (fun i w => w.set (σ i) (addV A (w (σ (i - 1))) (c (i - 1)))) (x.set (σ 0) (c (n - 1)))
    (fun i hi => by obtain rfl : i = 0 := by omega
                    rw [Arr.set_same]; rfl)
    (by
      intro j w h1 hj hw k hk
      by_cases hkj : k = j
      · subst hkj
        rw [Arr.set_same, hw (k - 1) (by omega)]
        obtain ⟨k, rfl⟩ : ∃ k', k = k' + 1 := ⟨k - 1, by omega⟩
        rfl
      · rw [Arr.set_other _ _ _ _ (fun e => hkj (hi.inj k j (by omega) hj e))]
        exact hw k (by omega))
  exact this i h

theorem toChainR_link {A : Arith} {n : Nat} (x c : Arr (V3 ℝ)) (σ : Arr Nat) (i : Nat) (h : i + 1 < n) : toChainR A n x c σ i = subV A (x (σ (i + 1))) (x (σ i)) := by
  have := forLoop_inv (σ := Arr (V3 ℝ)) (fun m w => ∀ i, i < m → w i = subV A (x (σ (i + 1))) (x (σ i))) 0 (n - 1) (Nat.zero_le _)
    (fun i w => w.set i (subV A (x (σ (i + 1))) (x (σ i)))) (c.set (n - 1) (x (σ 0))) (fun i hi => by omega)
    (by
      intro j w _ hj hw k hk
      by_cases hkj : k = j
      · subst hkj; rw [Arr.set_same]
      · rw [Arr.set_other _ _ _ _ hkj]; exact hw k (by omega))
  exact this i (by omega)

theorem toChainR_base {A : Arith} {n : Nat} (x c : Arr (V3 ℝ)) (σ : Arr Nat) : toChainR A n x c σ (n - 1) = x (σ 0) := by
  have := forLoop_inv (σ := Arr (V3 ℝ)) (fun _ w => w (n - 1) = x (σ 0)) 0 (n - 1) (Nat.zero_le _)
    (fun i w => w.set i (subV A (x (σ (i + 1))) (x (σ i)))) (c.set (n - 1) (x (σ 0))) (Arr.set_same _ _ _)
    (by
      intro j w _ hj hw
      rw [Arr.set_other _ _ _ _ (by omega)]; exact hw)
  exact this

/-! ### chains -/

/-- the chain `c` is near the chain of the coordinates `x` along `σ` -/
structure Links (n : Nat) (V : ℝ → Z → Prop) (S : Set Z) (σ : Arr Nat) (c : Arith → Z → Arr (V3 ℝ)) (x : Z → Arr (V3 ℝ)) : Prop where
  link : ∀ i, i + 1 < n → NearV V S (fun A z => c A z i) (fun z => x z (σ (i + 1)) - x z (σ i))
  base : NearV V S (fun A z => c A z (n - 1)) (fun z => x z (σ 0))

variable {n : Nat} {σ τ : Arr Nat} {c : Arith → Z → Arr (V3 ℝ)} {x : Z → Arr (V3 ℝ)}

theorem NearA.entry {F : Arith → Z → Arr (V3 ℝ)} {F0 : Z → Arr (V3 ℝ)} (hi : IsIndex n σ) (h : ∀ i, i < n → NearV V S (fun A z => F A z (σ i)) (fun z => F0 z (σ i))) :
    NearA n V S F F0 := by
  intro k hk
  obtain ⟨i, hin, rfl⟩ := hi.surj hk
  exact h i hin

theorem Links.partials (h : Links n V S σ c x) : ∀ i, i < n → NearV V S (fun A z => partialR A n (c A z) i) (fun z => x z (σ i)) := by
  intro i
  induction i with
  | zero => intro _; exact h.base
  | succ i ih =>
    intro hi
    exact ((ih (by omega)).add (h.link i hi)).congr (fun _ _ _ => rfl) fun z _ => by rw [addV_exact]; abel

theorem Links.cart (hn : 1 ≤ n) (hi : IsIndex n σ) (h : Links n V S σ c x) (old : Arith → Z → Arr (V3 ℝ)) : NearA n V S (fun A z => toCartR A n (c A z) (old A z) σ) x :=
  NearA.entry hi fun i hin => (h.partials i hin).congr (fun _ _ _ => toCartR_entry hn hi _ _ i hin) fun _ _ => rfl

/-- the coordinates that belong to the stored chain, without rounding -/
theorem Links.partials_exact (h : Links n V S σ c x) : ∀ i, i < n → NearV V S (fun A z => partialR .exact n (c A z) i) (fun z => x z (σ i)) := by
  intro i
  induction i with
  | zero => intro _; exact h.base
  | succ i ih =>
    intro hi
    exact ((ih (by omega)).plus (h.link i hi)).congr (fun _ _ _ => rfl) fun z _ => by rw [addV_exact]; abel

theorem Links.cart_exact (hn : 1 ≤ n) (hi : IsIndex n σ) (h : Links n V S σ c x) (old : Arith → Z → Arr (V3 ℝ)) :
    NearA n V S (fun A z => toCartR .exact n (c A z) (old A z) σ) x :=
  NearA.entry hi fun i hin => (h.partials_exact i hin).congr (fun _ _ _ => toCartR_entry hn hi _ _ i hin) fun _ _ => rfl

theorem Links.ofChain (hi : IsIndex n σ) {y : Arith → Z → Arr (V3 ℝ)} (hy : NearA n V S y x) (hn : 1 ≤ n) (old : Arith → Z → Arr (V3 ℝ)) :
    Links n V S σ (fun A z => toChainR A n (y A z) (old A z) σ) x where
  link i h := ((hy _ (hi.lt (i + 1) h)).sub (hy _ (hi.lt i (by omega)))).congr (fun A z _ => toChainR_link _ _ _ _ h) fun _ _ => rfl
  base := (hy _ (hi.lt 0 hn)).congr (fun A z _ => toChainR_base _ _ _) fun _ _ => rfl

theorem Links.advance (hn : 1 ≤ n) (hi : IsIndex n σ) (h : Links n V S σ c x) {ci : Arith → Z → Arr (V3 ℝ)} {xi : Z → Arr (V3 ℝ)} (h' : Links n V S σ ci xi) {d : Arith → Z → ℝ}
    {d0 : Z → ℝ} (hd : Near V S d d0) : Links n V S σ (fun A z => advance A n (c A z) (ci A z) (d A z)) (fun z => advance .exact n (x z) (xi z) (d0 z)) where
  link i hin := ((h.link i hin).add ((h'.link i hin).mul hd)).congr (fun A z _ => by rw [advanceR_apply, if_pos (by omega)]) fun z _ => by
    rw [advanceR_apply, advanceR_apply, if_pos (hi.lt _ hin), if_pos (hi.lt i (by omega))]
    simp only [addV_exact, mulV_exact, smul_sub]
    abel
  base := ((h.base).add (h'.base.mul hd)).congr (fun A z _ => by rw [advanceR_apply, if_pos (by omega)]) fun z _ => by
    rw [advanceR_apply, if_pos (hi.lt 0 hn)]

theorem Links.node (h : Links n V S σ c x) {a b : Nat} (ha : a < n) (hb : b < n) (hab : a ≠ b) :
    NearV V S (fun A z => newNodeR A (c A z) a b) (fun z => x z (σ b) - x z (σ a)) := by
  by_cases hlt : a > b
  · have key : ∀ m, b + 1 ≤ m → m ≤ a → NearV V S (fun A z => forLoop (b + 1) m (fun j d => subV A d (c A z j)) (-(c A z b))) (fun z => x z (σ b) - x z (σ m)) := by
      intro m h1
      induction m, h1 using Nat.le_induction with
      | base => intro _; exact (h.link b (by omega)).neg.congr (fun A z _ => forLoop_self _ _ le_rfl _ _) fun z _ => by abel
      | succ m h1 ih =>
        intro h2
        exact ((ih (by omega)).sub (h.link m (by omega))).congr (fun A z _ => forLoop_succ _ _ h1 _ _) fun z _ => by rw [subV_exact]; abel
    exact (key a (by omega) le_rfl).congr (fun A z _ => by rw [newNodeR, if_pos hlt]) fun _ _ => rfl
  · have key : ∀ m, a + 1 ≤ m → m ≤ b → NearV V S (fun A z => forLoop (a + 1) m (fun j d => addV A d (c A z j)) (c A z a)) (fun z => x z (σ m) - x z (σ a)) := by
      intro m h1
      induction m, h1 using Nat.le_induction with
      | base => intro _; exact (h.link a (by omega)).congr (fun A z _ => forLoop_self _ _ le_rfl _ _) fun z _ => rfl
      | succ m h1 ih =>
        intro h2
        exact ((ih (by omega)).add (h.link m (by omega))).congr (fun A z _ => forLoop_succ _ _ h1 _ _) fun z _ => by rw [addV_exact]; abel
    exact (key b (by omega) le_rfl).congr (fun A z _ => by rw [newNodeR, if_neg hlt]) fun _ _ => rfl

theorem Links.update (hn : 1 ≤ n) (hi : IsIndex n σ) (ht : IsIndex n τ) (h : Links n V S σ c x) {y : Arith → Z → Arr (V3 ℝ)} (hy : NearA n V S y x) :
    Links n V S τ (fun A z => updateChainR A n (c A z) (y A z) σ τ) x where
  link i hin := by
    obtain ⟨a1, a2⟩ := Chain.findPos_spec hi (ht.lt i (by omega))
    obtain ⟨b1, b2⟩ := Chain.findPos_spec hi (ht.lt (i + 1) hin)
    have hne : Chain.findPos n σ (τ i) ≠ Chain.findPos n σ (τ (i + 1)) := fun e => by
      rw [← e, a2] at b2
      have := ht.inj i (i + 1) (by omega) hin b2
      omega
    exact (h.node a1 b1 hne).congr (fun A z _ => by simp only [updateChainR]; rw [if_pos hin]) fun z _ => by rw [a2, b2]
  base := (hy _ (ht.lt 0 hn)).congr (fun A z _ => by simp only [updateChainR]; rw [if_neg (by omega), if_pos (by omega)]) fun _ _ => rfl

/-! ### accelerations -/

theorem Apart.ne {f : Z → Particles} (h : Apart n S f) {i j : Nat} (hi : i < n) (hj : j < n) (hij : i ≠ j) : ∃ b : ℝ, 0 < b ∧ ∀ z ∈ S, b ≤ sq ((f z).pos j - (f z).pos i) := by
  rcases Nat.lt_or_gt_of_ne hij with e | e
  · exact h i j e hj
  · obtain ⟨b, hb, k⟩ := h j i e hi
    refine ⟨b, hb, fun z hz => (k z hz).trans (le_of_eq ?_)⟩
    simp only [sq, V3.sub_x, V3.sub_y, V3.sub_z]
    ring

/-- what rounding does to the state of a chain system with the index `σ`, next to a plain system without rounding -/
structure NearC (n : Nat) (V : ℝ → Z → Prop) (S : Set Z) (σ : Arr Nat) (F : Arith → Z → ChainSys) (F0 : Z → Simple) : Prop where
  num : ∀ A, ∀ z ∈ S, (F A z).P.num = n
  num0 : ∀ z ∈ S, (F0 z).P.num = n
  index : ∀ A, ∀ z ∈ S, (F A z).index = σ
  mass : ∀ k, k < n → Near V S (fun A z => (F A z).P.mass k) (fun z => (F0 z).P.mass k)
  pos : NearA n V S (fun A z => (F A z).P.pos) (fun z => (F0 z).P.pos)
  vel : NearA n V S (fun A z => (F A z).P.vel) (fun z => (F0 z).P.vel)
  cpos : Links n V S σ (fun A z => (F A z).cpos) (fun z => (F0 z).P.pos)
  cvel : Links n V S σ (fun A z => (F A z).cvel) (fun z => (F0 z).P.vel)
  time : Near V S (fun A z => (F A z).time) (fun z => (F0 z).time)

variable {F : Arith → Z → ChainSys} {F0 : Z → Simple}

/-- the chain loops without rounding -/
noncomputable def loops0 (n : Nat) (σ : Arr Nat) (P : Particles) : Arr (V3 ℝ) :=
  let C : Arr (V3 ℝ) := fun i => if i + 1 < n then P.pos (σ (i + 1)) - P.pos (σ i) else P.pos (σ 0)
  forLoop 0 (n - 1) (fun i a => force .exact P.mass (C i) (σ i) (σ (i + 1)) a)
    (forLoop 0 (n - 2) (fun i a => force .exact P.mass (addV .exact (C i) (C (i + 1))) (σ i) (σ (i + 2)) a)
      (forLoop 0 n (fun i a => forLoop (i + 3) n (fun j a => force .exact P.mass (subV .exact (P.pos (σ j)) (P.pos (σ i))) (σ i) (σ j) a) a) (fun _ => 0)))

theorem loops0_eq (hn : 2 ≤ n) (hi : IsIndex n σ) (P : Particles) (hP : P.num = n) : loops0 n σ P = acc .exact P := by
  subst hP
  obtain ⟨a, h1, _, h2⟩ := Props.C06_newton_chain P ⟨fun i => if i + 1 < P.num then P.pos (σ (i + 1)) - P.pos (σ i) else P.pos (σ 0), fun _ => 0, σ⟩ hn hi
    ⟨fun i h => if_pos h, if_neg (show ¬(P.num - 1 + 1 < P.num) by omega)⟩ (fun _ => 0)
  unfold newtonChain chainLoopsFar at h1
  rw [if_neg (by omega)] at h1
  have h3 : acc .exact P = newtonDirect P (fun _ => 0) := rfl
  rw [h3, ← h2]
  exact Res.ok.inj h1

theorem NearC.acc (hn : 2 ≤ n) (hi : IsIndex n σ) (h : NearC n V S σ F F0) (hap : Apart n S (fun z => (F0 z).P)) :
    NearA n V S (fun A z => accChain A (F A z)) (fun z => acc .exact (F0 z).P) := by
  have C : ∀ i, i + 1 < n → NearV V S (fun A z => (F A z).cpos i) (fun z => if i + 1 < n then (F0 z).P.pos (σ (i + 1)) - (F0 z).P.pos (σ i) else (F0 z).P.pos (σ 0)) :=
    fun i hin => (h.cpos.link i hin).congr (fun _ _ _ => rfl) fun z _ => if_pos hin
  have ne : ∀ i j, i < n → j < n → i ≠ j → σ i ≠ σ j := fun i j h1 h2 hij e => hij (hi.inj i j h1 h2 e)
  have far := NearA.loop (n := n) (V := V) (S := S)
    (body := fun A z i a => forLoop (i + 3) n (fun j a => force A (F A z).P.mass (subV A ((F A z).P.pos (σ j)) ((F A z).P.pos (σ i))) (σ i) (σ j) a) a)
    (body0 := fun z i a => forLoop (i + 3) n (fun j a => force .exact (F0 z).P.mass (subV .exact ((F0 z).P.pos (σ j)) ((F0 z).P.pos (σ i))) (σ i) (σ j) a) a) (lo := 0)
    (NearA.zero n) n fun i _ hin G G0 hG => NearA.loop
      (body := fun A z j a => force A (F A z).P.mass (subV A ((F A z).P.pos (σ j)) ((F A z).P.pos (σ i))) (σ i) (σ j) a)
      (body0 := fun z j a => force .exact (F0 z).P.mass (subV .exact ((F0 z).P.pos (σ j)) ((F0 z).P.pos (σ i))) (σ i) (σ j) a) hG n fun j hj1 hj G' G0' hG' => by
        obtain ⟨b, hb, away⟩ := hap.ne (hi.lt i hin) (hi.lt j hj) (ne i j hin hj (by omega))
        exact near_force (m := fun A z => (F A z).P.mass) (m0 := fun z => (F0 z).P.mass) (hi.lt i hin) (hi.lt j hj) h.mass
          ((h.pos _ (hi.lt j hj)).sub (h.pos _ (hi.lt i hin))) hb away hG'
  have skip := NearA.loop (lo := 0) (body := fun A z i a => force A (F A z).P.mass (addV A ((F A z).cpos i) ((F A z).cpos (i + 1))) (σ i) (σ (i + 2)) a)
    (body0 := fun z i a => force .exact (F0 z).P.mass (addV .exact (if i + 1 < n then (F0 z).P.pos (σ (i + 1)) - (F0 z).P.pos (σ i) else (F0 z).P.pos (σ 0))
      (if i + 1 + 1 < n then (F0 z).P.pos (σ (i + 1 + 1)) - (F0 z).P.pos (σ (i + 1)) else (F0 z).P.pos (σ 0))) (σ i) (σ (i + 2)) a) far (n - 2) fun i _ hin G G0 hG => by
    obtain ⟨b, hb, away⟩ := hap.ne (hi.lt i (by omega)) (hi.lt (i + 2) (by omega)) (ne i (i + 2) (by omega) (by omega) (by omega))
    refine near_force (m := fun A z => (F A z).P.mass) (m0 := fun z => (F0 z).P.mass) (hi.lt i (by omega)) (hi.lt (i + 2) (by omega)) h.mass
      ((C i (by omega)).add (C (i + 1) (by omega))) hb (fun z hz => ?_) hG
    have := away z hz
    rw [if_pos (by omega), if_pos (by omega), addV_exact]
    rwa [show (F0 z).P.pos (σ (i + 1)) - (F0 z).P.pos (σ i) + ((F0 z).P.pos (σ (i + 1 + 1)) - (F0 z).P.pos (σ (i + 1))) =
      (F0 z).P.pos (σ (i + 2)) - (F0 z).P.pos (σ i) by abel]
  have adj := NearA.loop (lo := 0) (body := fun A z i a => force A (F A z).P.mass ((F A z).cpos i) (σ i) (σ (i + 1)) a)
    (body0 := fun z i a => force .exact (F0 z).P.mass (if i + 1 < n then (F0 z).P.pos (σ (i + 1)) - (F0 z).P.pos (σ i) else (F0 z).P.pos (σ 0)) (σ i) (σ (i + 1)) a)
    skip (n - 1) fun i _ hin G G0 hG => by
    obtain ⟨b, hb, away⟩ := hap.ne (hi.lt i (by omega)) (hi.lt (i + 1) (by omega)) (ne i (i + 1) (by omega) (by omega) (by omega))
    refine near_force (m := fun A z => (F A z).P.mass) (m0 := fun z => (F0 z).P.mass) (hi.lt i (by omega)) (hi.lt (i + 1) (by omega)) h.mass
      (C i (by omega)) hb (fun z hz => ?_) hG
    rw [if_pos (by omega)]
    exact away z hz
  refine adj.congr (fun A z hz => ?_) fun z hz => ?_
  · unfold accChain
    rw [h.num A z hz, h.index A z hz]
  · rw [← loops0_eq hn hi _ (h.num0 z hz)]
    rfl

/-! ### steps -/

theorem NearC.drift (hn : 2 ≤ n) (hi : IsIndex n σ) (h : NearC n V S σ F F0) {d : Arith → Z → ℝ} {d0 : Z → ℝ} (hd : Near V S d d0) :
    NearC n V S σ (fun A z => driftC A (d A z) (F A z)) (fun z => drift .exact (d0 z) (F0 z)) := by
  have L := h.cpos.advance (by omega) hi h.cvel hd
  have L' : Links n V S σ (fun A z => (driftC A (d A z) (F A z)).cpos) (fun z => (Rounded.drift .exact (d0 z) (F0 z)).P.pos) := by
    refine ⟨fun i hin => (L.link i hin).congr (fun A z hz => ?_) fun z hz => ?_, L.base.congr (fun A z hz => ?_) fun z hz => ?_⟩
    · show Rounded.advance A (F A z).P.num _ _ _ i = _
      rw [h.num A z hz]
    · show Rounded.advance .exact (F0 z).P.num _ _ _ _ - Rounded.advance .exact (F0 z).P.num _ _ _ _ = _
      rw [h.num0 z hz]
    · show Rounded.advance A (F A z).P.num _ _ _ _ = _
      rw [h.num A z hz]
    · show Rounded.advance .exact (F0 z).P.num _ _ _ _ = _
      rw [h.num0 z hz]
  refine ⟨h.num, h.num0, h.index, h.mass, ?_, h.vel, L', h.cvel, h.time.add hd⟩
  refine (L'.cart (by omega) hi (fun A z => (F A z).P.pos)).congr (fun A z hz => ?_) fun _ _ => rfl
  show toCartR A (F A z).P.num (Rounded.advance A (F A z).P.num _ _ _) _ (F A z).index = toCartR A n (Rounded.advance A (F A z).P.num _ _ _) _ _
  rw [h.index A z hz, h.num A z hz]

theorem NearC.kick (hn : 2 ≤ n) (hi : IsIndex n σ) (h : NearC n V S σ F F0) (hap : Apart n S (fun z => (F0 z).P)) {d : Arith → Z → ℝ} {d0 : Z → ℝ} (hd : Near V S d d0) :
    NearC n V S σ (fun A z => kickC A (d A z) (F A z)) (fun z => kick .exact (d0 z) (F0 z)) := by
  have L := h.cvel.advance (by omega) hi (Links.ofChain hi (h.acc hn hi hap) (by omega) fun _ _ _ => 0) hd
  have L' : Links n V S σ (fun A z => (kickC A (d A z) (F A z)).cvel) (fun z => (Rounded.kick .exact (d0 z) (F0 z)).P.vel) := by
    refine ⟨fun i hin => (L.link i hin).congr (fun A z hz => ?_) fun z hz => ?_, L.base.congr (fun A z hz => ?_) fun z hz => ?_⟩
    · show Rounded.advance A (F A z).P.num _ (toChainR A (F A z).P.num _ _ (F A z).index) _ i = _
      rw [h.index A z hz, h.num A z hz]
    · show Rounded.advance .exact (F0 z).P.num _ _ _ _ - Rounded.advance .exact (F0 z).P.num _ _ _ _ = _
      rw [h.num0 z hz]
    · show Rounded.advance A (F A z).P.num _ (toChainR A (F A z).P.num _ _ (F A z).index) _ _ = _
      rw [h.index A z hz, h.num A z hz]
    · show Rounded.advance .exact (F0 z).P.num _ _ _ _ = _
      rw [h.num0 z hz]
  refine ⟨h.num, h.num0, h.index, h.mass, h.pos, ?_, h.cpos, L', h.time⟩
  refine (L'.cart (by omega) hi (fun A z => (F A z).P.vel)).congr (fun A z hz => ?_) fun _ _ => rfl
  show toCartR A (F A z).P.num (Rounded.advance A (F A z).P.num _ (toChainR A (F A z).P.num _ _ (F A z).index) _) _ (F A z).index =
    toCartR A n (Rounded.advance A (F A z).P.num _ (toChainR A (F A z).P.num _ _ (F A z).index) _) _ _
  rw [h.index A z hz, h.num A z hz]

theorem NearC.step (hn : 2 ≤ n) (hi : IsIndex n σ) {d : Z → ℝ} (hd : Near V S (fun _ => d) d) (stages : List Stage) : ∀ (F : Arith → Z → ChainSys) (F0 : Z → Simple),
    NearC n V S σ F F0 → (∀ pre suf, stages = pre ++ suf → Apart n S (fun z => (step .exact pre (d z) (F0 z)).P)) →
      NearC n V S σ (fun A z => stepC A stages (d z) (F A z)) (fun z => step .exact stages (d z) (F0 z)) := by
  induction stages with
  | nil => exact fun F F0 h _ => h
  | cons c l ih =>
    intro F F0 h hap
    have h1 : NearC n V S σ (fun A z => stageC A (d z) c (F A z)) (fun z => stage .exact (d z) c (F0 z)) := by
      cases c with
      | drift c => exact h.drift hn hi ((Near.lit c).mul hd)
      | kick c => exact h.kick hn hi (hap [] (.kick c :: l) rfl) ((Near.lit c).mul hd)
    exact ih _ _ h1 fun pre suf e => hap (c :: pre) suf (by rw [e]; rfl)

/-- `post_iter_process` -/
theorem NearC.post (hn : 2 ≤ n) (hi : IsIndex n σ) (ht : IsIndex n τ) (h : NearC n V S σ F F0) (hne : ∃ k, k < n ∧ τ k ≠ σ k) :
    NearC n V S τ (fun A z => postIterC A τ (F A z)) F0 := by
  have e : ∀ A, ∀ z ∈ S, postIterC A τ (F A z) =
      { (F A z) with
        cpos := updateChainR A n (F A z).cpos (F A z).P.pos σ τ
        cvel := updateChainR A n (F A z).cvel (F A z).P.vel σ τ
        P := { (F A z).P with
          pos := toCartR A n (updateChainR A n (F A z).cpos (F A z).P.pos σ τ) (F A z).P.pos τ
          vel := toCartR A n (updateChainR A n (F A z).cvel (F A z).P.vel σ τ) (F A z).P.vel τ }
        index := τ } := by
    intro A z hz
    have a := h.num A z hz
    have b := h.index A z hz
    unfold postIterC
    rw [if_pos (by rw [a, b]; exact hne), a, b]
  have L1 := h.cpos.update (by omega) hi ht h.pos
  have L2 := h.cvel.update (by omega) hi ht h.vel
  refine ⟨fun A z hz => by rw [e A z hz]; exact h.num A z hz, h.num0, fun A z hz => by rw [e A z hz], fun k hk => (h.mass k hk).congr (fun A z hz => by rw [e A z hz]) fun _ _ => rfl,
    (L1.cart (by omega) ht _).congr (fun A z hz => by rw [e A z hz]) fun _ _ => rfl, (L2.cart (by omega) ht _).congr (fun A z hz => by rw [e A z hz]) fun _ _ => rfl,
    ⟨fun i hin => (L1.link i hin).congr (fun A z hz => by rw [e A z hz]) fun _ _ => rfl, L1.base.congr (fun A z hz => by rw [e A z hz]) fun _ _ => rfl⟩,
    ⟨fun i hin => (L2.link i hin).congr (fun A z hz => by rw [e A z hz]) fun _ _ => rfl, L2.base.congr (fun A z hz => by rw [e A z hz]) fun _ _ => rfl⟩,
    h.time.congr (fun A z hz => by rw [e A z hz]) fun _ _ => rfl⟩

end SpaceHub.Rounded
