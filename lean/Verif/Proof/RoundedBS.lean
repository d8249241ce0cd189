import Verif.Model.RoundedBS
import Verif.Proof.RoundedStep
import Verif.Proof.BSAny
import Verif.Proof.RoundedMix
import Verif.Props.RoundedRun
import Verif.Props.ConvergeBS

/-
What rounding does to the runs of a Bulirsch-Stoer step.
-/

set_option autoImplicit false

namespace SpaceHub.Rounded
open SpaceHub V3 Force Core Integrator Sys Spec BS BS.Spec Props Converge

variable {Z : Type} {V : ℝ → Z → Prop} {S : Set Z}

/-- the same for the first `n` entries of an array of numbers -/
def NearEnt (n : Nat) (V : ℝ → Z → Prop) (S : Set Z) (F : Arith → Z → Arr ℝ) (F0 : Z → Arr ℝ) : Prop :=
  ∀ k, k < n → Near V S (fun A z => F A z k) (fun z => F0 z k)

theorem NearEnt.set {n i : Nat} {F : Arith → Z → Arr ℝ} {F0 : Z → Arr ℝ} {v : Arith → Z → ℝ} {v0 : Z → ℝ} (hF : NearEnt n V S F F0)
    (hv : Near V S v v0) : NearEnt n V S (fun A z => (F A z).set i (v A z)) (fun z => (F0 z).set i (v0 z)) := by
  intro k hk
  by_cases h : k = i
  · exact hv.congr (fun A z _ => by simp [Arr.set, h]) fun z _ => by simp [Arr.set, h]
  · exact (hF k hk).congr (fun A z _ => by simp [Arr.set, h]) fun z _ => by simp [Arr.set, h]

theorem NearEnt.congr {n : Nat} {F F' : Arith → Z → Arr ℝ} {F0 F0' : Z → Arr ℝ} (h : NearEnt n V S F F0) (e : ∀ A, ∀ z ∈ S, F' A z = F A z)
    (e0 : ∀ z ∈ S, F0' z = F0 z) : NearEnt n V S F' F0' :=
  fun k hk => (h k hk).congr (fun A z hz => by rw [e A z hz]) fun z hz => by rw [e0 z hz]

theorem NearEnt.loop {n lo : Nat} {body : Arith → Z → Nat → Arr ℝ → Arr ℝ} {body0 : Z → Nat → Arr ℝ → Arr ℝ}
    {init : Arith → Z → Arr ℝ} {init0 : Z → Arr ℝ} (h0 : NearEnt n V S init init0) :
    ∀ hi, (∀ i, lo ≤ i → i < hi → ∀ F F0, NearEnt n V S F F0 → NearEnt n V S (fun A z => body A z i (F A z)) (fun z => body0 z i (F0 z))) →
      NearEnt n V S (fun A z => forLoop lo hi (body A z) (init A z)) (fun z => forLoop lo hi (body0 z) (init0 z)) := by
  intro hi
  induction hi with
  | zero => intro _; exact h0.congr (fun A z _ => forLoop_self _ _ (Nat.zero_le _) _ _) fun z _ => forLoop_self _ _ (Nat.zero_le _) _ _
  | succ hi ih =>
    intro h
    by_cases hle : lo ≤ hi
    · exact (h hi hle (by omega) _ _ (ih fun i h1 h2 => h i h1 (by omega))).congr (fun A z _ => forLoop_succ _ _ hle _ _) fun z _ => forLoop_succ _ _ hle _ _
    · exact h0.congr (fun A z _ => forLoop_self _ _ (by omega) _ _) fun z _ => forLoop_self _ _ (by omega) _ _

theorem near_advanceScaled {M off n : Nat} (hM : off + 3 * n ≤ M) {inc : Arith → Z → Arr ℝ} {inc0 : Z → Arr ℝ} {v : Arith → Z → Arr (V3 ℝ)}
    {v0 : Z → Arr (V3 ℝ)} {h : Arith → Z → ℝ} {h0 : Z → ℝ} (hi : NearEnt M V S inc inc0) (hv : NearA n V S v v0) (hh : Near V S h h0) :
    NearEnt M V S (fun A z => advanceScaled A (inc A z) off n (v A z) (h A z)) (fun z => advanceScaled .exact (inc0 z) off n (v0 z) (h0 z)) := by
  refine NearEnt.loop
    (body := fun A z i inc =>
      ((inc.set (off + 3 * i) (A.add (inc (off + 3 * i)) (A.mul (v A z i).x (h A z)))).set (off + 3 * i + 1)
        (A.add ((inc.set (off + 3 * i) (A.add (inc (off + 3 * i)) (A.mul (v A z i).x (h A z)))) (off + 3 * i + 1)) (A.mul (v A z i).y (h A z)))).set (off + 3 * i + 2)
        (A.add (((inc.set (off + 3 * i) (A.add (inc (off + 3 * i)) (A.mul (v A z i).x (h A z)))).set (off + 3 * i + 1)
        (A.add ((inc.set (off + 3 * i) (A.add (inc (off + 3 * i)) (A.mul (v A z i).x (h A z)))) (off + 3 * i + 1)) (A.mul (v A z i).y (h A z)))) (off + 3 * i + 2))
          (A.mul (v A z i).z (h A z))))
    (body0 := fun z i inc =>
      ((inc.set (off + 3 * i) (Arith.exact.add (inc (off + 3 * i)) (Arith.exact.mul (v0 z i).x (h0 z)))).set (off + 3 * i + 1)
        (Arith.exact.add ((inc.set (off + 3 * i) (Arith.exact.add (inc (off + 3 * i)) (Arith.exact.mul (v0 z i).x (h0 z)))) (off + 3 * i + 1)) (Arith.exact.mul (v0 z i).y (h0 z)))).set (off + 3 * i + 2)
        (Arith.exact.add (((inc.set (off + 3 * i) (Arith.exact.add (inc (off + 3 * i)) (Arith.exact.mul (v0 z i).x (h0 z)))).set (off + 3 * i + 1)
        (Arith.exact.add ((inc.set (off + 3 * i) (Arith.exact.add (inc (off + 3 * i)) (Arith.exact.mul (v0 z i).x (h0 z)))) (off + 3 * i + 1)) (Arith.exact.mul (v0 z i).y (h0 z)))) (off + 3 * i + 2))
          (Arith.exact.mul (v0 z i).z (h0 z)))) hi n fun i _ hi' G G0 hG => ?_
  have g1 := hG.set (i := off + 3 * i) ((hG (off + 3 * i) (by omega)).add ((hv i hi').1.mul hh))
  have g2 := g1.set (i := off + 3 * i + 1) ((g1 (off + 3 * i + 1) (by omega)).add ((hv i hi').2.1.mul hh))
  exact g2.set (i := off + 3 * i + 2) ((g2 (off + 3 * i + 2) (by omega)).add ((hv i hi').2.2.mul hh))

/-- what rounding does to a system that collects its increments -/
structure NearInc (n : Nat) (V : ℝ → Z → Prop) (S : Set Z) (F : Arith → Z → Simple) (F0 : Z → Simple) : Prop where
  base : NearS n V S F F0
  sync : ∀ A, ∀ z ∈ S, (F A z).sync = true
  sync0 : ∀ z ∈ S, (F0 z).sync = true
  inc : NearEnt (6 * n + 1) V S (fun A z => (F A z).inc) (fun z => (F0 z).inc)

theorem driftInc_eq (A : Arith) (h : ℝ) {s : Simple} (hs : s.sync = true) : driftInc A h s =
    { drift A h s with inc := advanceScaled A (s.inc.set 0 (A.add (s.inc 0) h)) posOffset s.P.num s.P.vel h } := by
  unfold driftInc syncClock syncCoords
  dsimp only
  rw [if_pos hs, if_pos hs]
  rfl

theorem kickInc_eq (A : Arith) (h : ℝ) {s : Simple} (hs : s.sync = true) : kickInc A h s =
    { kick A h s with inc := advanceScaled A s.inc (velOffset s.P.num) s.P.num (acc A s.P) h } := by
  unfold kickInc syncCoords
  dsimp only
  rw [if_pos hs]
  rfl

variable {n : Nat} {F : Arith → Z → Simple} {F0 : Z → Simple}

theorem NearInc.driftInc (h : NearInc n V S F F0) {d : Arith → Z → ℝ} {d0 : Z → ℝ} (hd : Near V S d d0) :
    NearInc n V S (fun A z => Rounded.driftInc A (d A z) (F A z)) (fun z => Rounded.driftInc .exact (d0 z) (F0 z)) where
  base := by
    have b := h.base.drift hd
    exact ⟨⟨fun A z hz => by rw [driftInc_eq A _ (h.sync A z hz)]; exact b.P.num A z hz, fun z hz => by rw [driftInc_eq _ _ (h.sync0 z hz)]; exact b.P.num0 z hz,
      fun k hk => (b.P.mass k hk).congr (fun A z hz => by rw [driftInc_eq A _ (h.sync A z hz)]) fun z hz => by rw [driftInc_eq _ _ (h.sync0 z hz)],
      b.P.pos.congr (fun A z hz => by rw [driftInc_eq A _ (h.sync A z hz)]) fun z hz => by rw [driftInc_eq _ _ (h.sync0 z hz)],
      b.P.vel.congr (fun A z hz => by rw [driftInc_eq A _ (h.sync A z hz)]) fun z hz => by rw [driftInc_eq _ _ (h.sync0 z hz)]⟩,
      b.time.congr (fun A z hz => by rw [driftInc_eq A _ (h.sync A z hz)]) fun z hz => by rw [driftInc_eq _ _ (h.sync0 z hz)]⟩
  sync A z hz := by rw [driftInc_eq A _ (h.sync A z hz)]; exact h.sync A z hz
  sync0 z hz := by rw [driftInc_eq _ _ (h.sync0 z hz)]; exact h.sync0 z hz
  inc := by
    have i0 := h.inc.set (i := 0) ((h.inc 0 (by omega)).add hd)
    refine (near_advanceScaled (M := 6 * n + 1) (off := posOffset) (n := n) (by unfold posOffset; omega) i0 h.base.P.vel hd).congr (fun A z hz => ?_) fun z hz => ?_
    · rw [driftInc_eq A _ (h.sync A z hz), h.base.P.num A z hz]
    · rw [driftInc_eq _ _ (h.sync0 z hz), h.base.P.num0 z hz]; rfl

theorem NearInc.kickInc (h : NearInc n V S F F0) (hap : Apart n S (fun z => (F0 z).P)) {d : Arith → Z → ℝ} {d0 : Z → ℝ} (hd : Near V S d d0) :
    NearInc n V S (fun A z => Rounded.kickInc A (d A z) (F A z)) (fun z => Rounded.kickInc .exact (d0 z) (F0 z)) where
  base := by
    have b := h.base.kick hap hd
    exact ⟨⟨fun A z hz => by rw [kickInc_eq A _ (h.sync A z hz)]; exact b.P.num A z hz, fun z hz => by rw [kickInc_eq _ _ (h.sync0 z hz)]; exact b.P.num0 z hz,
      fun k hk => (b.P.mass k hk).congr (fun A z hz => by rw [kickInc_eq A _ (h.sync A z hz)]) fun z hz => by rw [kickInc_eq _ _ (h.sync0 z hz)],
      b.P.pos.congr (fun A z hz => by rw [kickInc_eq A _ (h.sync A z hz)]) fun z hz => by rw [kickInc_eq _ _ (h.sync0 z hz)],
      b.P.vel.congr (fun A z hz => by rw [kickInc_eq A _ (h.sync A z hz)]) fun z hz => by rw [kickInc_eq _ _ (h.sync0 z hz)]⟩,
      b.time.congr (fun A z hz => by rw [kickInc_eq A _ (h.sync A z hz)]) fun z hz => by rw [kickInc_eq _ _ (h.sync0 z hz)]⟩
  sync A z hz := by rw [kickInc_eq A _ (h.sync A z hz)]; exact h.sync A z hz
  sync0 z hz := by rw [kickInc_eq _ _ (h.sync0 z hz)]; exact h.sync0 z hz
  inc := by
    refine (near_advanceScaled (M := 6 * n + 1) (off := velOffset n) (n := n) (by unfold velOffset; omega) h.inc (h.base.P.acc hap) hd).congr (fun A z hz => ?_) fun z hz => ?_
    · rw [kickInc_eq A _ (h.sync A z hz), h.base.P.num A z hz]
    · rw [kickInc_eq _ _ (h.sync0 z hz), h.base.P.num0 z hz]

/-! ### the runs -/

/-- one call of a run, for a stage of the joined leap-frog steps -/
noncomputable def subOp (A : Arith) (H : ℝ) (n : Nat) : Stage → Op
  | .drift c => .drift (if c = 1 then A.div H (A.lit n) else A.mul (A.lit c) (A.div H (A.lit n)))
  | .kick c => .kick (if c = 1 then A.div H (A.lit n) else A.mul (A.lit c) (A.div H (A.lit n)))

theorem substeps_eq (A : Arith) (kdk : Bool) (H : ℝ) (n : Nat) (hn : 1 ≤ n) : substeps A kdk H n = (joined kdk n).map (subOp A H n) := by
  have loop : ∀ (x y : Op) (n : ℕ), 1 ≤ n → forLoop 1 n (fun _ l => l ++ [x, y]) [] = (List.replicate (n - 1) [x, y]).flatten := by
    intro x y n hn
    induction n, hn using Nat.le_induction with
    | base => rw [forLoop_self 1 1 le_rfl]; simp
    | succ n hn ih =>
      rw [forLoop_succ 1 n hn, ih, show n + 1 - 1 = (n - 1) + 1 by omega, List.replicate_succ']
      simp
  have h2 : ¬ ((1 : ℚ) / 2 = 1) := by norm_num
  cases kdk
  · simp only [joined, outer, innerW, Bool.false_eq_true, if_false, List.map_append, List.map_cons, List.map_nil, List.map_flatten, List.map_replicate,
      subOp, substeps, loop _ _ n hn, if_true, if_neg h2]
  · simp only [joined, outer, innerW, if_true, List.map_append, List.map_cons, List.map_nil, List.map_flatten, List.map_replicate,
      subOp, substeps, loop _ _ n hn, if_neg h2]

theorem subOp_exact (H : ℝ) (n : Nat) (s : Stage) : subOp .exact H n s = Stage.op H (scaleS (1 / n) s) := by
  have key : ∀ c : ℚ, (if c = 1 then Arith.exact.div H (Arith.exact.lit n) else Arith.exact.mul (Arith.exact.lit c) (Arith.exact.div H (Arith.exact.lit n))) =
      ((c * (1 / n) : ℚ) : ℝ) * H := by
    intro c
    have e : Arith.exact.div H (Arith.exact.lit n) = H / n := by show H / ((n : ℚ) : ℝ) = _; push_cast; rfl
    rw [e]
    by_cases h : c = 1
    · rw [if_pos h, h]; push_cast; ring
    · rw [if_neg h]
      show (c : ℝ) * (H / n) = _
      push_cast
      ring
  cases s with
  | drift c => exact congrArg Op.drift (key c)
  | kick c => exact congrArg Op.kick (key c)

/-- without rounding the calls are those of the systems in exact arithmetic -/
theorem call_exact (o : Op) (s : Simple) : (simpleOps gravity).apply o s = .ok (call .exact s o) := by
  cases o with
  | drift h => rfl
  | kick h =>
    show Res.ok (s.kick gravity h) = .ok (Rounded.kickInc .exact h s)
    unfold Rounded.kickInc
    rw [acc_exact]
    rfl

theorem callAll_exact (ops : List Op) : ∀ s : Simple, (simpleOps gravity).run ops s = .ok (callAll .exact ops s) := by
  induction ops with
  | nil => exact fun s => rfl
  | cons o l ih =>
    intro s
    show (simpleOps gravity).apply o s >>= (simpleOps gravity).run l = _
    rw [call_exact]
    exact ih _

theorem NearInc.runs {m : Nat} {d : Z → ℝ} (hd : Near V S (fun _ => d) d) (hm : 1 ≤ m) (l : List Stage) : ∀ (F : Arith → Z → Simple) (F0 : Z → Simple),
    NearInc n V S F F0 → (∀ pre suf, l = pre ++ suf → Apart n S (fun z => (callAll .exact (pre.map (subOp .exact (d z) m)) (F0 z)).P)) →
      NearInc n V S (fun A z => callAll A (l.map (subOp A (d z) m)) (F A z)) (fun z => callAll .exact (l.map (subOp .exact (d z) m)) (F0 z)) := by
  induction l with
  | nil => exact fun F F0 h _ => h
  | cons c l ih =>
    intro F F0 h hap
    have hm0 : (0 : ℝ) < m := by exact_mod_cast hm
    have hdiv : Near V S (fun A z => A.div (d z) (A.lit m)) (fun z => Arith.exact.div (d z) (Arith.exact.lit m)) :=
      hd.div (Near.lit m) (c := m) hm0 fun z _ => le_abs_self _
    have len : ∀ c : ℚ, Near V S (fun A z => if c = 1 then A.div (d z) (A.lit m) else A.mul (A.lit c) (A.div (d z) (A.lit m)))
        (fun z => if c = 1 then Arith.exact.div (d z) (Arith.exact.lit m) else Arith.exact.mul (Arith.exact.lit c) (Arith.exact.div (d z) (Arith.exact.lit m))) := by
      intro c
      by_cases h1 : c = 1
      · simpa only [if_pos h1] using hdiv
      · exact ((Near.lit c).mul hdiv).congr (fun A z _ => if_neg h1) fun z _ => if_neg h1
    have h1 : NearInc n V S (fun A z => call A (F A z) (subOp A (d z) m c)) (fun z => call .exact (F0 z) (subOp .exact (d z) m c)) := by
      cases c with
      | drift c => exact h.driftInc (len c)
      | kick c => exact h.kickInc (hap [] (.kick c :: l) rfl) (len c)
    exact ih _ _ h1 fun pre suf e => hap (c :: pre) suf (by rw [e]; rfl)

/-! ### the table -/

theorem near_entry {D M : Nat} {Y : Arith → Z → Nat → Nat → ℝ} {Y0 : Z → Nat → Nat → ℝ}
    (hY : ∀ m, m ≤ D → NearEnt M V S (fun A z => Y A z m) (fun z => Y0 z m)) (d : Nat) : ∀ r, r + d ≤ D →
      NearEnt M V S (fun A z i => @entry ℝ A.scalar D (fun m => Y A z m i) d r) (fun z i => @entry ℝ Arith.exact.scalar D (fun m => Y0 z m i) d r) := by
  induction d with
  | zero => intro r hr; exact hY r (by omega)
  | succ d ih =>
    intro r hr i hi
    have a := ih (r + 1) (by omega) i hi
    have b := ih r (by omega) i hi
    have c : Near V S (fun A _ => @tableCoef ℝ A.scalar D (r + d + 1) d) (fun _ => @tableCoef ℝ Arith.exact.scalar D (r + d + 1) d) := by
      have e : ∀ A : Arith, @tableCoef ℝ A.scalar D (r + d + 1) d = A.div (A.lit ((hSeq D r * hSeq D r : Nat) : ℚ))
          (A.sub (A.lit ((hSeq D (r + d + 1) * hSeq D (r + d + 1) : Nat) : ℚ)) (A.lit ((hSeq D r * hSeq D r : Nat) : ℚ))) := by
        intro A
        unfold tableCoef
        rw [if_pos (by omega)]
        simp only [show r + d + 1 - d - 1 = r by omega]
        rfl
      have lt : hSeq D r * hSeq D r < hSeq D (r + d + 1) * hSeq D (r + d + 1) := by
        have := hSeq_lt (D := D) (show r < r + d + 1 by omega) (by omega)
        exact Nat.mul_self_lt_mul_self this
      have lt' : ((hSeq D r * hSeq D r : Nat) : ℝ) + 1 ≤ ((hSeq D (r + d + 1) * hSeq D (r + d + 1) : Nat) : ℝ) := by exact_mod_cast lt
      refine ((Near.lit _).div ((Near.lit _).sub (Near.lit _)) (c := 1) one_pos fun z _ => ?_).congr (fun A z _ => e A) fun z _ => e .exact
      refine le_trans ?_ (le_abs_self _)
      push_cast at lt' ⊢
      linarith
    exact a.add ((a.sub b).mul c)

end SpaceHub.Rounded
