import Verif.Props.RadauConserve
import Verif.Props.ConvergeIAS15Regu

/-
C63 for chain systems.
-/

set_option autoImplicit false

namespace SpaceHub.Radau
open SpaceHub SpaceHub.Sys SpaceHub.Props SpaceHub.BS SpaceHub.Spec V3 Force Core Finset Ctl Fl
open SpaceHub.Converge hiding comp

/-! ### functionals on configurations -/

/-- a coordinate -/
def coordL (c : Nat) : ℝ × ℝ × ℝ →ₗ[ℝ] ℝ where
  toFun p := if c = 0 then p.1 else if c = 1 then p.2.1 else p.2.2
  map_add' p q := by split_ifs <;> rfl
  map_smul' r p := by split_ifs <;> rfl

theorem coordL_co (c : Nat) (a : V3 ℝ) : coordL c (co a) = comp a c := rfl

/-- component `c` of the sum of mass times vector -/
def weighed (n : Nat) (m : Arr ℝ) (c : Nat) : Conf n →ₗ[ℝ] ℝ := ∑ k : Fin n, m k • (coordL c).comp (LinearMap.proj k)

theorem weighed_conf (n : Nat) (m : Arr ℝ) (c : Nat) (x : Arr (V3 ℝ)) : weighed n m c (conf n x) = comp (∑ k ∈ range n, m k • x k) c := by
  unfold weighed
  rw [LinearMap.sum_apply, comp_sum, ← Fin.sum_univ_eq_sum_range (fun k => comp (m k • x k) c) n]
  refine sum_congr rfl fun k _ => ?_
  rw [comp_smul, mul_comm]
  rfl

/-- component `c` of the momentum, from the chain variables -/
noncomputable def chainVelL {n : Nat} (m : Arr ℝ) (σ : Fin n ≃ Fin n) (c : Nat) : (Nat → ℝ) →ₗ[ℝ] ℝ :=
  (weighed n m c).comp ((LinearMap.snd ℝ (Conf n) (Conf n)).comp (chainL σ))

/-- component `c` of the mass moment, from the chain variables -/
noncomputable def chainPosL {n : Nat} (m : Arr ℝ) (σ : Fin n ≃ Fin n) (c : Nat) : (Nat → ℝ) →ₗ[ℝ] ℝ :=
  (weighed n m c).comp ((LinearMap.fst ℝ (Conf n) (Conf n)).comp (chainL σ))

theorem chainVelL_of {n : Nat} (m : Arr ℝ) (σ : Fin n ≃ Fin n) (c : Nat) {f : Nat → ℝ} {x v : Arr (V3 ℝ)} (h : chainL σ f = (conf n x, conf n v)) :
    chainVelL m σ c f = comp (∑ k ∈ range n, m k • v k) c := by
  rw [← weighed_conf]
  show weighed n m c (chainL σ f).2 = _
  rw [h]

theorem chainPosL_of {n : Nat} (m : Arr ℝ) (σ : Fin n ≃ Fin n) (c : Nat) {f : Nat → ℝ} {x v : Arr (V3 ℝ)} (h : chainL σ f = (conf n x, conf n v)) :
    chainPosL m σ c f = comp (∑ k ∈ range n, m k • x k) c := by
  rw [← weighed_conf]
  show weighed n m c (chainL σ f).1 = _
  rw [h]

theorem chainL_local {n : Nat} (σ : Fin n ≃ Fin n) {N : Nat} (hN : 1 + 6 * n ≤ N) {f g : Nat → ℝ} (h : ∀ v, v < N → f v = g v) : chainL σ f = chainL σ g := by
  show (unchain σ (readL n f).1, unchain σ (readL n f).2) = (unchain σ (readL n g).1, unchain σ (readL n g).2)
  rw [readL_local n _ hN f g h]

theorem chainVelL_local {n : Nat} (m : Arr ℝ) (σ : Fin n ≃ Fin n) (c : Nat) {N : Nat} (hN : 1 + 6 * n ≤ N) : LocalTo N (chainVelL m σ c) := by
  intro f g h
  show weighed n m c (chainL σ f).2 = weighed n m c (chainL σ g).2
  rw [chainL_local σ hN h]

theorem chainPosL_local {n : Nat} (m : Arr ℝ) (σ : Fin n ≃ Fin n) (c : Nat) {N : Nat} (hN : 1 + 6 * n ≤ N) (p : ℝ) :
    LocalTo N (chainPosL m σ c - p • timeL) := by
  intro f g h
  rw [LinearMap.sub_apply, LinearMap.sub_apply, LinearMap.smul_apply, LinearMap.smul_apply, show timeL f = timeL g from h 0 (by omega)]
  show weighed n m c (chainL σ f).1 - _ = weighed n m c (chainL σ g).1 - _
  rw [chainL_local σ hN h]

/-! ### corrections -/

variable {S : Type}

/-- after a sweep whose derivatives all give the functional the same rate, it vanishes on the differences -/
theorem rows_flat {L : (Nat → ℝ) →ₗ[ℝ] ℝ} {T : Tab} {O : RSys S} {H : ℝ} {R : Nat → GR} {st X : Nat → S} {D : Nat → List ℝ × S}
    (p : Path T O H 0 7 R st X D) : ∀ n, n ≤ 7 → (∀ i, i < n → L (GR.toArr (D i).1) = L (R 0).dy0) → ∀ j, j < n → L ((R n).g j) = 0 := by
  intro n
  induction n with
  | zero => intro _ _ j hj; omega
  | succ n ih =>
    intro hn hd j hj
    have ih := ih (by omega) fun i hi => hd i (by omega)
    rw [p.next n (Nat.zero_le _) (by omega)]
    obtain ⟨g1, g2, _⟩ := updateB_eq T { R n with dyh := GR.toArr (D n).1 } n 0
    by_cases hjn : j = n
    · subst hjn
      rw [show (({ R j with dyh := GR.toArr (D j).1 } : GR).updateB T j).g j = newG T { R j with dyh := GR.toArr (D j).1 } j from
        funext fun v => (updateB_eq T { R j with dyh := GR.toArr (D j).1 } j v).1]
      have e : newG T { R j with dyh := GR.toArr (D j).1 } j =
          T.rs j 0 • (GR.toArr (D j).1 - (R j).dy0) - ∑ i ∈ range j, T.rs j (i + 1) • (R j).g i := by
        funext v
        simp only [newG, Pi.sub_apply, Pi.smul_apply, smul_eq_mul, Finset.sum_apply]
        rw [mul_comm]; congr 1
        exact sum_congr rfl fun j _ => mul_comm _ _
      rw [e, map_sub, map_smul, map_sub, hd j (by omega), (p.fixed j (by omega)).2.1, sub_self, smul_zero, map_sum, zero_sub, neg_eq_zero]
      exact sum_eq_zero fun i hi => by rw [map_smul, ih i (mem_range.1 hi), smul_zero]
    · rw [g2 j hjn]
      exact ih j (by omega)

theorem consistent_flat {L : (Nat → ℝ) →ₗ[ℝ] ℝ} {c : Nat → ℝ} {r : GR} (h : Consistent c r) (hg : ∀ j, j < 7 → L (r.g j) = 0) (j : Nat) (hj : j < 7) :
    L (r.b j) = 0 := by
  have e : r.b j = ∑ i ∈ range 7, coefG2B c i j • r.g i := by
    funext v
    rw [h j v hj]
    simp only [Finset.sum_apply, Pi.smul_apply, smul_eq_mul]
    exact sum_congr rfl fun i _ => mul_comm _ _
  rw [e, map_sum]
  exact sum_eq_zero fun i hi => by rw [map_smul, hg i (mem_range.1 hi), smul_zero]

/-- the functional vanishes on the tables that a correction uses -/
def Flat2 (L : (Nat → ℝ) →ₗ[ℝ] ℝ) (r : GR) : Prop := ∀ j, j < 7 → L (r.b j) = 0 ∧ L (r.g j) = 0

theorem flat2_update {L : (Nat → ℝ) →ₗ[ℝ] ℝ} (T : Tab) {r : GR} (h : Flat2 L r) (hd : L r.dyh = L r.dy0) (stage : Nat) (hs : stage < 7) :
    Flat2 L (r.updateB T stage) := by
  have h' : FlatFor L { r with old := fun _ _ => 0 } := fun j hj => ⟨(h j hj).1, (h j hj).2, L.map_zero⟩
  have := flat_update T h' hd stage hs
  exact fun j hj => ⟨(this j hj).1, (this j hj).2.1⟩

theorem flat2_integral {L : (Nat → ℝ) →ₗ[ℝ] ℝ} {N : Nat} (hL : LocalTo N L) {r : GR} (h : ∀ j, j < 7 → L (r.b j) = 0) (H x : ℝ) (y0 y : List ℝ)
    (hy : ∀ v, v < N → y.getD v 0 = y0.getD v 0 + H * ∫ τ in (0 : ℝ)..x, slope (r.dy0 v) (fun j => r.b j v) τ) :
    L (GR.toArr y) = L (GR.toArr y0) + H * x * L r.dy0 :=
  flat_integral hL (r := { r with g := fun _ _ => 0, old := fun _ _ => 0 }) (fun j hj => ⟨h j hj, L.map_zero, L.map_zero⟩) H x y0 y hy

/-- With exact tables: one correction makes the tables flat for a functional that the derivative does not change; the next one also for the functional whose
rate depends on the value of the first. -/
theorem regain_correct {c : Nat → ℝ} {O : RSys S} {ok : S → Prop} {L1 L2 : (Nat → ℝ) →ₗ[ℝ] ℝ} {p κ : ℝ} (hR : Rates O ok L1 L2 p κ)
    (hrd : ∀ x y v, ok x → O.read x v = .ok y → ok y ∧ O.write y = v) (hdv : ∀ x d, ok x → O.deriv x = .ok d → ok d.2)
    {N : Nat} (hL1 : LocalTo N L1) {H : ℝ} {r r' : GR} {s s' : S} (hs : ok s)
    (hN : (O.write s).length = N) (hp : L1 (GR.toArr (O.write s)) = p) (hc : Consistent c r)
    (e : correct (exact c) O H r s = .ok (s', r')) :
    Consistent c r' ∧ Flat2 L1 r' ∧ L1 r'.dy0 = 0 ∧ L2 r'.dy0 = κ ∧ (Flat2 L1 r → Flat2 L2 r') := by
  obtain ⟨d, R, st, X, D, hd, pth, h0, h7, hR7, hin, hdy, hnum, hbg⟩ := correct_path e
  have hcons := pth.consistent (Path.start_consistent hc (R 0) (by
    rcases hbg with ⟨_, a, b⟩ | ⟨_, a, b⟩
    · exact .inl ⟨a, b⟩
    · exact .inr ⟨a, b⟩))
  have hdy0 : ∀ n, n ≤ 7 → (R n).dy0 = GR.toArr d.1 := fun n hn => (pth.fixed n hn).2.1.trans hdy
  obtain ⟨r1, r2⟩ := hR s d hs hd
  have r2 := r2 hp
  have hst : ∀ n, n ≤ 7 → ok (st n) := by
    intro n
    induction n with
    | zero => intro _; rw [h0]; exact hdv s d hs hd
    | succ n ih =>
      intro hn
      have a := (hrd _ _ _ (ih (by omega)) (pth.read n (Nat.zero_le _) (by omega))).1
      have b := hdv _ _ a (pth.deriv n (Nat.zero_le _) (by omega))
      exact (hrd _ _ _ b (pth.back n (Nat.zero_le _) (by omega))).1
  have hX : ∀ n, n < 7 → ok (X n) ∧ O.write (X n) = (R n).stageState (exact c) H n := fun n hn =>
    hrd _ _ _ (hst n (by omega)) (pth.read n (Nat.zero_le _) hn)
  have hD1 : ∀ n, n < 7 → L1 (GR.toArr (D n).1) = 0 := fun n hn => (hR _ _ (hX n hn).1 (pth.deriv n (Nat.zero_le _) hn)).1
  have f1 : Flat2 L1 (R 7) := by
    have hg := rows_flat (L := L1) pth 7 le_rfl fun i hi => by rw [hD1 i hi, hdy0 0 (by omega), r1]
    exact fun j hj => ⟨consistent_flat (hcons 7 le_rfl) hg j hj, hg j hj⟩
  have f2 : Flat2 L1 r → Flat2 L2 (R 7) := by
    intro hr
    have key : ∀ n, n ≤ 7 → Flat2 L1 (R n) := by
      intro n
      induction n with
      | zero =>
        intro _ j hj
        rcases hbg with ⟨_, a, b⟩ | ⟨_, a, b⟩
        · rw [a, b]; exact hr j hj
        · rw [show (R 0).b j = 0 from funext fun v => a j v, show (R 0).g j = 0 from funext fun v => b j v, map_zero]
          exact ⟨rfl, rfl⟩
      | succ n ih =>
        intro hn
        rw [pth.next n (Nat.zero_le _) (by omega)]
        refine flat2_update (exact c) (r := { R n with dyh := GR.toArr (D n).1 }) (ih (by omega)) ?_ n (by omega)
        show L1 (GR.toArr (D n).1) = L1 (R n).dy0
        rw [hD1 n (by omega), hdy0 n (by omega), r1]
    have hD2 : ∀ n, n < 7 → L2 (GR.toArr (D n).1) = κ := fun n hn => by
      refine (hR _ _ (hX n hn).1 (pth.deriv n (Nat.zero_le _) hn)).2 ?_
      rw [(hX n hn).2]
      obtain ⟨_, c2⟩ := stageState_eq (exact c) (R n) H n
      have hi : (R n).input = O.write s := (pth.fixed n (by omega)).1.trans hin
      rw [hi, hN] at c2
      rw [flat2_integral hL1 (fun j hj => (key n (by omega) j hj).1) H ((exact c).h n) (O.write s) _ c2, hdy0 n (by omega), r1, mul_zero, add_zero, hp]
    have hg := rows_flat (L := L2) pth 7 le_rfl fun i hi => by rw [hD2 i hi, hdy0 0 (by omega), r2]
    exact fun j hj => ⟨consistent_flat (hcons 7 le_rfl) hg j hj, hg j hj⟩
  rw [hR7] at f1 f2
  refine ⟨by rw [← hR7]; exact hcons 7 le_rfl, f1, ?_, ?_, f2⟩
  · rw [← hR7, hdy0 7 le_rfl]; exact r1
  · rw [← hR7, hdy0 7 le_rfl]; exact r2

/-- An accepted step with exact tables: the first functional keeps its value; if the step was accepted after at least two corrections, the second has advanced
as it should. -/
theorem regain_step {c : Nat → ℝ} {O : RSys S} {s s' : S} {frame same : S → S → Prop} {ok : S → Prop} (hsf : ∀ x, same s x → ok x)
    (hrd : ∀ x y v, ok x → O.read x v = .ok y → ok y ∧ O.write y = v) (hdv : ∀ x d, ok x → O.deriv x = .ok d → ok d.2)
    {L1 L2 : (Nat → ℝ) →ₗ[ℝ] ℝ} {p κ : ℝ} (hR : Rates O ok L1 L2 p κ)
    (hL1 : LocalTo (O.write s).length L1) (hL2 : LocalTo (O.write s).length L2) (hp : L1 (GR.toArr (O.write s)) = p)
    {big H h' : ℝ} {it it' : IAS} (hc : Consistent c it.gr)
    {m : Nat} {h q : Nat → ℝ} {n : Nat → Nat} {g : Nat → Nat → GR} {y : Nat → Nat → S} {E : Nat → Nat → ℝ} {se : ℝ}
    (a : AcceptedBy (exact c) O big frame same H it s s' it' h' m h q n g y E se) :
    Consistent c it'.gr ∧ L1 (GR.toArr (O.write s')) = p ∧
      (1 ≤ n m → L2 (GR.toArr (O.write s')) = L2 (GR.toArr (O.write s)) + κ * h m) := by
  obtain ⟨a1, a2, a3, a4, _, _, _, _, a5, _, _, a6⟩ := a
  have pass : ∀ i, i ≤ m → Consistent c (g i 0) → ∀ j, j ≤ n i + 1 → Consistent c (g i j) ∧
      (1 ≤ j → Flat2 L1 (g i j) ∧ L1 (g i j).dy0 = 0 ∧ L2 (g i j).dy0 = κ) ∧ (2 ≤ j → Flat2 L2 (g i j)) := by
    intro i hi f j
    induction j with
    | zero => intro _; exact ⟨f, fun h => absurd h (by omega), fun h => absurd h (by omega)⟩
    | succ j ih =>
      intro hj
      obtain ⟨b1, b2, _⟩ := ih (by omega)
      obtain ⟨c1, c2⟩ := (a4 i hi).2 j (by omega)
      obtain ⟨d1, d2, d3, d4, d5⟩ := regain_correct hR hrd hdv (N := (O.write s).length) hL1 (hsf _ c1) (by rw [c2]) (by rw [c2]; exact hp)
        b1 ((a4 i hi).1.pass j (by omega)).1
      exact ⟨d1, fun _ => ⟨d2, d3, d4⟩, fun h2 => d5 (b2 (by omega)).1⟩
  have start : ∀ i, i ≤ m → Consistent c (g i 0) := by
    intro i
    induction i with
    | zero => intro _; rw [a2]; exact hc
    | succ i ih =>
      intro hi
      obtain ⟨c1, _⟩ := pass i (by omega) (ih (by omega)) (n i + 1) le_rfl
      rw [(a3 i (by omega)).2.2.2]
      split_ifs
      · exact consistent_predict c _ _
      · exact c1
  obtain ⟨_, c2, c3⟩ := pass m le_rfl (start m le_rfl) (n m + 1) le_rfl
  obtain ⟨c4, c5, c6⟩ := c2 (by omega)
  rw [a5]
  refine ⟨consistent_predict c _ _, ?_, fun h2 => ?_⟩
  · rw [flat2_integral hL1 (fun j hj => (c4 j hj).1) (h m) 1 (O.write s) _ a6, c5, mul_zero, add_zero, hp]
  · rw [flat2_integral hL2 (fun j hj => (c3 (by omega) j hj).1) (h m) 1 (O.write s) _ a6, c6]; ring

/-- `flat_step` for systems in any set of states that loading and the derivative keep -/
theorem flat_on {T : Tab} {O : RSys S} {s s' : S} {frame same : S → S → Prop} {ok : S → Prop} (hsf : ∀ x, same s x → ok x)
    (hrd : ∀ x y v, ok x → O.read x v = .ok y → ok y ∧ O.write y = v) (hdv : ∀ x d, ok x → O.deriv x = .ok d → ok d.2)
    {L1 L2 : (Nat → ℝ) →ₗ[ℝ] ℝ} {p κ : ℝ} (hR : Rates O ok L1 L2 p κ)
    (hL1 : LocalTo (O.write s).length L1) (hL2 : LocalTo (O.write s).length L2) (hp : L1 (GR.toArr (O.write s)) = p)
    {big H h' : ℝ} {it it' : IAS} (h1 : FlatFor L1 it.gr) (h2 : FlatFor L2 it.gr)
    {m : Nat} {h q : Nat → ℝ} {n : Nat → Nat} {g : Nat → Nat → GR} {y : Nat → Nat → S} {E : Nat → Nat → ℝ} {se : ℝ}
    (a : AcceptedBy T O big frame same H it s s' it' h' m h q n g y E se) :
    FlatFor L1 it'.gr ∧ FlatFor L2 it'.gr ∧ L1 (GR.toArr (O.write s')) = p ∧
      L2 (GR.toArr (O.write s')) = L2 (GR.toArr (O.write s)) + κ * h m := by
  obtain ⟨a1, a2, a3, a4, _, _, _, _, a5, _, _, a6⟩ := a
  have pass : ∀ i, i ≤ m → FlatFor L1 (g i 0) → FlatFor L2 (g i 0) → ∀ j, j ≤ n i + 1 →
      FlatFor L1 (g i j) ∧ FlatFor L2 (g i j) ∧ (j ≠ 0 → L1 (g i j).dy0 = 0 ∧ L2 (g i j).dy0 = κ) := by
    intro i hi f1 f2 j
    induction j with
    | zero => intro _; exact ⟨f1, f2, fun h => absurd rfl h⟩
    | succ j ih =>
      intro hj
      obtain ⟨b1, b2, _⟩ := ih (by omega)
      obtain ⟨c1, c2⟩ := (a4 i hi).2 j (by omega)
      obtain ⟨d1, d2, d3, d4, d5⟩ := flat_correct hR hrd hdv (N := (O.write s).length) hL1 (hsf _ c1) (by rw [c2]) (by rw [c2]; exact hp)
        b1 b2 ((a4 i hi).1.pass j (by omega)).1
      exact ⟨d1, d2, fun _ => ⟨d3, d4⟩⟩
  have start : ∀ i, i ≤ m → FlatFor L1 (g i 0) ∧ FlatFor L2 (g i 0) := by
    intro i
    induction i with
    | zero => intro _; rw [a2]; exact ⟨h1, h2⟩
    | succ i ih =>
      intro hi
      obtain ⟨b1, b2⟩ := ih (by omega)
      obtain ⟨c1, c2, _⟩ := pass i (by omega) b1 b2 (n i + 1) le_rfl
      rw [(a3 i (by omega)).2.2.2]
      split_ifs
      · exact ⟨flat_predict T c1 _, flat_predict T c2 _⟩
      · exact ⟨c1, c2⟩
  obtain ⟨c1, c2, c3⟩ := pass m le_rfl (start m le_rfl).1 (start m le_rfl).2 (n m + 1) le_rfl
  obtain ⟨c3, c4⟩ := c3 (by omega)
  rw [a5]
  refine ⟨flat_predict T c1 _, flat_predict T c2 _, ?_, ?_⟩
  · rw [flat_integral hL1 c1 (h m) 1 (O.write s) _ a6, c3, mul_zero, add_zero, hp]
  · rw [flat_integral hL2 c2 (h m) 1 (O.write s) _ a6, c4]; ring

/-! ### systems described by chain variables -/

/-- In the states `ok` the variables are the chain coordinates, for the chain `σ`, of the particles `parts`, and the derivative moves the particles with their
velocities, without net force. -/
structure Resolved (O : RSys S) (ok : S → Prop) {n : Nat} (m : Arr ℝ) (σ : Fin n ≃ Fin n) (parts : S → Particles) (clock : S → ℝ) : Prop where
  long : ∀ x, ok x → 1 + 6 * n ≤ (O.write x).length
  num : ∀ x, ok x → (parts x).num = n
  mass : ∀ x, ok x → (parts x).mass = m
  written : ∀ x, ok x → chainL σ (GR.toArr (O.write x)) = (conf n (parts x).pos, conf n (parts x).vel)
  clocked : ∀ x, ok x → timeL (GR.toArr (O.write x)) = clock x
  read : ∀ x y v, ok x → O.read x v = .ok y → ok y ∧ O.write y = v
  keep : ∀ x d, ok x → O.deriv x = .ok d → ok d.2
  slope : ∀ x d, ok x → O.deriv x = .ok d → ∃ (tp tv : ℝ) (a : Arr (V3 ℝ)),
    chainL σ (GR.toArr d.1) = (conf n (fun k => tp • (parts x).vel k), conf n (fun k => tv • a k)) ∧ timeL (GR.toArr d.1) = tp ∧
      ∑ k ∈ range n, m k • a k = 0

namespace Resolved
variable {O : RSys S} {ok : S → Prop} {n : Nat} {m : Arr ℝ} {σ : Fin n ≃ Fin n} {parts : S → Particles} {clock : S → ℝ}

theorem weigh (m : Arr ℝ) (r : ℝ) (x : Arr (V3 ℝ)) (c : Nat) : comp (∑ k ∈ range n, m k • r • x k) c = r * comp (∑ k ∈ range n, m k • x k) c := by
  have : ∑ k ∈ range n, m k • r • x k = r • ∑ k ∈ range n, m k • x k := by
    rw [smul_sum]
    exact sum_congr rfl fun k _ => smul_comm _ _ _
  rw [this, comp_smul, mul_comm]

theorem mom (R : Resolved O ok m σ parts clock) {x : S} (hx : ok x) (c : Nat) : chainVelL m σ c (GR.toArr (O.write x)) = comp (momentum (parts x)) c := by
  rw [chainVelL_of m σ c (R.written x hx)]
  unfold momentum
  rw [R.num x hx, R.mass x hx]

theorem cen (R : Resolved O ok m σ parts clock) {x : S} (hx : ok x) (c : Nat) (p : ℝ) :
    (chainPosL m σ c - p • timeL) (GR.toArr (O.write x)) = comp (massMoment (parts x)) c - p * clock x := by
  rw [LinearMap.sub_apply, LinearMap.smul_apply, chainPosL_of m σ c (R.written x hx), R.clocked x hx, smul_eq_mul]
  unfold massMoment
  rw [R.num x hx, R.mass x hx]

theorem rates (R : Resolved O ok m σ parts clock) (c : Nat) (p : ℝ) : Rates O ok (chainVelL m σ c) (chainPosL m σ c - p • timeL) p 0 := by
  intro x d hx e
  obtain ⟨tp, tv, a, h1, h2, h3⟩ := R.slope x d hx e
  have z : comp (0 : V3 ℝ) c = 0 := by unfold comp; split_ifs <;> rfl
  refine ⟨?_, fun hp => ?_⟩
  · rw [chainVelL_of m σ c h1, weigh, h3, z, mul_zero]
  · rw [LinearMap.sub_apply, LinearMap.smul_apply, chainPosL_of m σ c h1, h2, weigh, ← hp, chainVelL_of m σ c (R.written x hx), smul_eq_mul, mul_comm, sub_self]

/-- one step with tables that fit the chain -/
theorem kept (R : Resolved O ok m σ parts clock) {T : Tab} {big H h' : ℝ} {frame same : S → S → Prop} {it it' : IAS} {x u : S} (hx : ok x) (hu : ok u)
    (hsf : ∀ y, same x y → ok y) (a : Accepted T O big frame same H it x u it' h') (q : V3 ℝ) (hq : momentum (parts x) = q)
    (hf : ∀ c, c < 3 → FlatFor (chainVelL m σ c) it.gr ∧ FlatFor (chainPosL m σ c - comp q c • timeL) it.gr) :
    momentum (parts u) = q ∧ massMoment (parts u) = massMoment (parts x) + (clock u - clock x) • q ∧
      ∀ c, c < 3 → FlatFor (chainVelL m σ c) it'.gr ∧ FlatFor (chainPosL m σ c - comp q c • timeL) it'.gr := by
  obtain ⟨mm, h, q', nn, g, y, E, se, a⟩ := (accepted_by _ _ _ _ _ _ _ _ _ _ _).1 a
  have key : ∀ c, c < 3 → (FlatFor (chainVelL m σ c) it'.gr ∧ FlatFor (chainPosL m σ c - comp q c • timeL) it'.gr) ∧
      comp (momentum (parts u)) c = comp q c ∧ comp (massMoment (parts u)) c - comp q c * clock u = comp (massMoment (parts x)) c - comp q c * clock x := by
    intro c hc
    obtain ⟨b1, b2, b3, b4⟩ := flat_on hsf R.read R.keep (R.rates c (comp q c)) (chainVelL_local m σ c (R.long x hx))
      (chainPosL_local m σ c (R.long x hx) _) (by rw [R.mom hx, hq]) (hf c hc).1 (hf c hc).2 a
    rw [R.mom hu] at b3
    rw [R.cen hu, R.cen hx, zero_mul, add_zero] at b4
    exact ⟨⟨b1, b2⟩, b3, b4⟩
  refine ⟨comp_ext fun c hc => (key c hc).2.1, comp_ext fun c hc => ?_, fun c hc => (key c hc).1⟩
  rw [comp_add, comp_smul]
  linarith [(key c hc).2.2]

/-- one step with exact tables -/
theorem regained (R : Resolved O ok m σ parts clock) {c : Nat → ℝ} {big H h' : ℝ} {frame same : S → S → Prop} {it it' : IAS} {x u : S} (hx : ok x)
    (hu : ok u) (hsf : ∀ y, same x y → ok y) (hc : Consistent c it.gr)
    {mm : Nat} {h q : Nat → ℝ} {nn : Nat → Nat} {g : Nat → Nat → GR} {y : Nat → Nat → S} {E : Nat → Nat → ℝ} {se : ℝ}
    (a : AcceptedBy (exact c) O big frame same H it x u it' h' mm h q nn g y E se) :
    Consistent c it'.gr ∧ momentum (parts u) = momentum (parts x) ∧
      (1 ≤ nn mm → massMoment (parts u) = massMoment (parts x) + (clock u - clock x) • momentum (parts x)) := by
  have key : ∀ i, Consistent c it'.gr ∧ comp (momentum (parts u)) i = comp (momentum (parts x)) i ∧
      (1 ≤ nn mm → comp (massMoment (parts u)) i - comp (momentum (parts x)) i * clock u =
        comp (massMoment (parts x)) i - comp (momentum (parts x)) i * clock x) := by
    intro i
    obtain ⟨b1, b2, b3⟩ := regain_step hsf R.read R.keep (R.rates i (comp (momentum (parts x)) i)) (chainVelL_local m σ i (R.long x hx))
      (chainPosL_local m σ i (R.long x hx) _) (R.mom hx i) hc a
    rw [R.mom hu] at b2
    rw [R.cen hu, R.cen hx, zero_mul, add_zero] at b3
    exact ⟨b1, b2, b3⟩
  refine ⟨(key 0).1, comp_ext fun i _ => (key i).2.1, fun h1 => comp_ext fun i _ => ?_⟩
  rw [comp_add, comp_smul]
  linarith [(key i).2.2 h1]

end Resolved

/-- What a call did: it made at least `k` corrections in the attempt that it accepted (see C33). -/
def CorrectedBy (T : Tab) (O : RSys S) (frame same : S → S → Prop) (k : Nat) (big H : ℝ) (it : IAS) (s s' : S) (it' : IAS) (h' : ℝ) : Prop :=
  ∃ m h q n g y E se, k ≤ n m + 1 ∧ AcceptedBy T O big frame same H it s s' it' h' m h q n g y E se

theorem chain_loads {IC : ChainInteractions} {n : Nat} {m : Arr ℝ} {σ : Fin n ≃ Fin n} {x y : ChainSys} {v : List ℝ} (hx : ChainOf IC.velDep m σ x ∧ x.P.mass = m)
    (e : (radauChain IC).read x v = .ok y) : (ChainOf IC.velDep m σ y ∧ y.P.mass = m) ∧ (radauChain IC).write y = v := by
  obtain ⟨h1, h2⟩ := chain_read hx.1 e
  have := (ChainSys.read_frame IC x y v hx.1.good.cons.num hx.1.good.cons.index e).1.2.1
  exact ⟨⟨h1, this.trans hx.2⟩, h2⟩

theorem chain_keeps {IC : ChainInteractions} {I : Interactions} (AI : AgreesI IC I) {n : Nat} {m : Arr ℝ} {σ : Fin n ≃ Fin n} {x : ChainSys} {d : List ℝ × ChainSys}
    (hx : ChainOf IC.velDep m σ x ∧ x.P.mass = m) (e : (radauChain IC).deriv x = .ok d) : ChainOf IC.velDep m σ d.2 ∧ d.2.P.mass = m := by
  rw [(chain_deriv AI hx.1.good e).1]; exact hx

theorem chain_resolved {IC : ChainInteractions} {I : Interactions} (AI : AgreesI IC I) {n : Nat} {m : Arr ℝ} (hI : AllForces I (NoNetForce n m)) (σ : Fin n ≃ Fin n) :
    Resolved (radauChain IC) (fun x => ChainOf IC.velDep m σ x ∧ x.P.mass = m) m σ ChainSys.P ChainSys.time where
  long x hx := by
    rw [chain_length AI hx.1]
    exact length_bound n I
  num x hx := hx.1.num
  mass x hx := hx.2
  written x hx := chain_written hx.1
  clocked x _ := timeL_flat IC.velDep x.flat _ (ChainSys.write_getD IC x)
  read x y v hx e := chain_loads hx e
  keep x d hx e := chain_keeps AI hx e
  slope x d hx e := by
    obtain ⟨_, c, hc, e1⟩ := chain_deriv AI hx.1.good e
    obtain ⟨⟨h1, h2, h3, h4⟩, hm⟩ := hx
    have hv := h4.cons.vel
    rw [h1] at hv hc
    refine ⟨1, 1, I.acc x.P, ?_, ?_, ?_⟩
    · rw [e1]
      refine (chainL_flat h3 IC.velDep ({ x with time := 1, cpos := x.cvel, cvel := c, caux := c } : ChainSys).flat h1 _ (ChainSys.write_getD IC _) hv hc).trans ?_
      simp only [one_smul]
    · rw [e1]
      exact timeL_flat IC.velDep ({ x with time := 1, cpos := x.cvel, cvel := c, caux := c } : ChainSys).flat _ (ChainSys.write_getD IC _)
    · exact (neutral_mass (n := n) (m := m) (I := I) hI x.P.pos).acc_zero (P := x.P) h1 hm rfl

/-- the derivative of a regularised chain system: the chain velocities and the chain coordinates of the accelerations, scaled -/
theorem ar_derivative_getD {G : ℝ} {type : ReguType} {IC : ChainInteractions} {I : Interactions} (A : AgreesI IC I) {b : Bool} {s : ARSys} (g : ARSys.Good b s)
    {d : List ℝ × ARSys} (e : s.derivative G type IC = .ok d) : ∃ (tp tv om be : ℝ) (a cacc : Arr (V3 ℝ)),
      (a = arrayAdd s.P.num (I.extraAcc s.P) (I.newtonianAcc s.P) ∨ a = I.newtonianAcc s.P) ∧ BelongsTo s.P.num s.index cacc a ∧
      (∀ v, d.1.getD v 0 = Flat.val IC.velDep ⟨s.P.num, tp, fun k => tp • s.cvel k, fun k => tv • cacc k, fun k => tv • cacc k, om, be, fun _ => 0⟩ v) ∧
      ∃ R', d.2 = { s with R := R' } := by
  unfold ARSys.derivative at e
  obtain ⟨rp, _, e⟩ := Res.bind_eq_ok.1 e
  obtain ⟨pot, _, e⟩ := Res.bind_eq_ok.1 e
  obtain ⟨rv, _, e⟩ := Res.bind_eq_ok.1 e
  dsimp only at e
  have n1 : IC.newtonianAcc s.P ({ s with R := rv.1 } : ARSys).view = .ok (I.newtonianAcc s.P) := A.newtonianAcc_eq g.two g.consistent
  have n2 : IC.extraAcc s.P ({ s with R := rv.1 } : ARSys).view = .ok (I.extraAcc s.P) := extraAcc_eq A g.two g.consistent
  rw [n1, Res.ok_bind, n2] at e
  obtain ⟨cacc, hc1, hc2⟩ := toChain_ok (n := s.P.num) (by have := g.two; omega) s.index
    (if (IC.velIndep || IC.velDep) = true then arrayAdd s.P.num (I.extraAcc s.P) (I.newtonianAcc s.P) else I.newtonianAcc s.P) (fun _ => 0)
  by_cases hx : (IC.velIndep || IC.velDep) = true
  · rw [if_pos hx] at hc1 hc2
    rw [if_pos hx, Res.ok_bind] at e
    simp only [hx, if_true] at e
    rw [hc1, Res.ok_bind] at e
    have e := Res.ok.inj e
    refine ⟨rp.2, rv.2, ReguSys.domegaDt type s.P.num s.P.mass s.P.vel (I.newtonianAcc s.P) * rv.2,
      ReguSys.dbindEDt type true s.P.num s.P.mass s.P.vel (arrayAdd s.P.num (I.extraAcc s.P) (I.newtonianAcc s.P)) * rv.2, _, cacc, .inl rfl, hc2, fun v => ?_, rv.1, ?_⟩
    · rw [← e]
      dsimp only
      rw [← getD_layout]
      congr 1
      cases hd : IC.velDep
      · simp [addScaledCoordsTo_eq]
      · simp [addScaledCoordsTo_eq]
    · rw [← e]
  · rw [if_neg hx] at hc1 hc2
    rw [if_neg hx, Res.ok_bind] at e
    simp only [hx, if_false, Bool.false_eq_true] at e
    rw [hc1, Res.ok_bind] at e
    have e := Res.ok.inj e
    refine ⟨rp.2, rv.2, ReguSys.domegaDt type s.P.num s.P.mass s.P.vel (I.newtonianAcc s.P) * rv.2,
      ReguSys.dbindEDt type false s.P.num s.P.mass s.P.vel (fun _ => 0) * rv.2, _, cacc, .inr rfl, hc2, fun v => ?_, rv.1, ?_⟩
    · rw [← e]
      dsimp only
      rw [← getD_layout]
      congr 1
      have hd : IC.velDep = false := by
        cases h : IC.velDep
        · rfl
        · exact absurd (by rw [h, Bool.or_true]) hx
      simp [addScaledCoordsTo_eq, hd]
    · rw [← e]

theorem ar_resolved {G : ℝ} {type : ReguType} {IC : ChainInteractions} {I : Interactions} (AI : AgreesI IC I) {n : Nat} {m : Arr ℝ}
    (hI : AllForces I (NoNetForce n m)) (σ : Fin n ≃ Fin n) :
    Resolved (radauAR G type IC) (fun x => AROf IC.velDep m σ x ∧ x.P.mass = m) m σ ARSys.P ARSys.time where
  long x hx := by
    have : ((radauAR G type IC).write x).length = x.variableNumber IC := C13_archain_size IC x
    rw [this]
    have h1 := length_bound n I
    have h2 := hx.1.num
    unfold ARSys.variableNumber
    rw [h2, AI.velDep_eq]
    omega
  num x hx := hx.1.num
  mass x hx := hx.2
  written x hx := by
    obtain ⟨⟨h1, _, h3, h4⟩, _⟩ := hx
    have := h4.cons
    rw [h1] at this
    exact chainL_flat h3 IC.velDep x.flat h1 _ (ARSys.write_getD IC x) this.pos this.vel
  clocked x _ := timeL_flat IC.velDep x.flat _ (ARSys.write_getD IC x)
  read x y v hx e := by
    obtain ⟨h1, h2⟩ := ar_read hx.1 e
    have := (ARSys.read_frame IC x y v hx.1.good.cons.num hx.1.good.cons.index e).1.2.1
    exact ⟨⟨h1, this.trans hx.2⟩, h2⟩
  keep x d hx e := by
    obtain ⟨_, _, _, _, _, _, _, _, _, R', e1⟩ := ar_derivative_getD AI hx.1.good e
    rw [e1]
    exact ⟨⟨hx.1.num, hx.1.mass, hx.1.index, ⟨hx.1.good.two, hx.1.good.cons⟩⟩, hx.2⟩
  slope x d hx e := by
    obtain ⟨tp, tv, om, be, a, cacc, ha, hc, hv, _⟩ := ar_derivative_getD AI hx.1.good e
    obtain ⟨⟨h1, h2, h3, h4⟩, hm⟩ := hx
    have bs : ∀ (r : ℝ) (y z : Arr (V3 ℝ)), BelongsTo n x.index y z → BelongsTo n x.index (fun k => r • y k) (fun k => r • z k) := fun r y z h => by
      refine ⟨fun i hi => ?_, ?_⟩
      · show r • y i = r • z _ - r • z _
        rw [h.link i hi]
        apply V3.ext <;> simp only [smul_x, smul_y, smul_z, sub_x, sub_y, sub_z] <;> ring
      · show r • y _ = r • z _
        rw [h.base]
    have hcv := h4.cons.vel
    rw [h1] at hcv hc
    have N := neutral_mass (n := n) (m := m) (I := I) hI x.P.pos
    refine ⟨tp, tv, a, ?_, ?_, ?_⟩
    · exact chainL_flat h3 IC.velDep ⟨x.P.num, tp, fun k => tp • x.cvel k, fun k => tv • cacc k, fun k => tv • cacc k, om, be, fun _ => 0⟩ h1 _ hv
        (bs tp _ _ hcv) (bs tv _ _ hc)
    · exact timeL_flat IC.velDep ⟨x.P.num, tp, fun k => tp • x.cvel k, fun k => tv • cacc k, fun k => tv • cacc k, om, be, fun _ => 0⟩ _ hv
    · show Lin n (massMap m) a = 0
      rcases ha with rfl | rfl
      · rw [h1, Lin_arrayAdd, extraAcc_zero N h1 hm rfl, N.newtonianAcc_zero h1 hm rfl, add_zero]
      · exact N.newtonianAcc_zero h1 hm rfl

end SpaceHub.Radau

namespace SpaceHub.Props
open SpaceHub SpaceHub.Sys SpaceHub.BS SpaceHub.Radau SpaceHub.Spec V3 Force Core Finset Ctl Fl
open SpaceHub.Converge hiding comp

section
variable {IC : ChainInteractions} {I : Interactions} (AI : AgreesI IC I)
include AI

/-- a macro step of a chain system, any tables -/
theorem chain_macro_any {n : Nat} {m : Arr ℝ} {σ : Fin n ≃ Fin n} {T : Tab} {big H h' : ℝ} {fuel : Nat} {it it' : IAS}
    {s u s' : ChainSys} (hs : ChainOf false m σ s ∧ s.P.mass = m) (hl : it.last = big) (e : Radau.ChainMacro T IC big fuel H it s u s' it' h') :
    (ChainOf IC.velDep m σ (s.preIter IC) ∧ (s.preIter IC).P.mass = m) ∧ (ChainOf IC.velDep m σ u ∧ u.P.mass = m) ∧ ChainSys.Good false s' ∧ s'.P = u.P ∧
      s'.time = u.time ∧ (s.preIter IC).P = s.P ∧ (s.preIter IC).time = s.time ∧ it'.last = big ∧
      Accepted T (radauChain IC) big ChainSys.Frame (SameChain IC) H it (s.preIter IC) u it' h' ∧
      ∀ y, SameChain IC (s.preIter IC) y → ChainOf IC.velDep m σ y ∧ y.P.mass = m := by
  obtain ⟨e1, idx, hi, e2⟩ := e
  have fp : ChainSys.Frame s (s.preIter IC) := by unfold ChainSys.preIter; split_ifs <;> exact ⟨rfl, rfl, rfl⟩
  have ep : (s.preIter IC).P = s.P ∧ (s.preIter IC).time = s.time := by unfold ChainSys.preIter; split_ifs <;> exact ⟨rfl, rfl⟩
  obtain ⟨gp, _⟩ := ChainSys.preIter_sim AI hs.1.good
  rw [← AI.velDep_eq] at gp
  have hp : ChainOf IC.velDep m σ (s.preIter IC) ∧ (s.preIter IC).P.mass = m := ⟨hs.1.of fp gp, by rw [ep.1]; exact hs.2⟩
  have hu := iterate_keep (T := T) (O := radauChain IC) (ok := fun x => ChainOf IC.velDep m σ x ∧ x.P.mass = m)
    (fun x y v hx e => (chain_loads hx e).1) (fun x d hx e => chain_keeps AI hx e) big fuel 0 H it _ u it' h' hp e1
  obtain ⟨s'', e3, g3, a3, _⟩ := ChainSys.postIter_sim hu.1.good.weaken idx hi.isIndex
  rw [e2] at e3; cases e3
  exact ⟨hp, hu, g3, congrArg Simple.P a3, congrArg Simple.time a3, ep.1, ep.2, iterate_last T _ big fuel _ _ _ _ _ _ _ e1,
    accepted (chain_radau IC _ hp.1.good.cons) big fuel H it it' u h' hl e1,
    fun y hy => ⟨hp.1.of ⟨hy.2.1, hy.2.2.1, hy.2.2.2.1⟩ (same_good hp.1.good hy), hy.2.2.1.trans hp.2⟩⟩

/-- C63, chain system, any tables, as long as the order of the chain stays the same: each macro step is `pre_iter_process`, a call of the iterator that
returns, and `post_iter_process`. -/
theorem C63_chain (T : Tab) (big time : ℝ) (P : Particles) (idx : Arr Nat) (hidx : IndexOf P idx) (hI : AllForces I (NoNetForce P.num P.mass))
    (N : Nat) (s u : Nat → ChainSys) (it : Nat → IAS) (fuel : Nat → Nat) (H h' : Nat → ℝ) (h0 : ChainSys.init time P idx = .ok (s 0))
    (hit : it 0 = IAS.new big)
    (hc : ∀ i, i < N → Radau.ChainMacro T IC big (fuel i) (H i) (it i) (s i) (u i) (s (i + 1)) (it (i + 1)) (h' i) ∧
      ∀ k, k < P.num → (s (i + 1)).index k = (s i).index k) :
    momentum (s N).P = momentum P ∧ massMoment (s N).P = massMoment P + ((s N).time - time) • momentum P := by
  obtain ⟨s0, e0, g0, a0, i0⟩ := ChainSys.init_sim time P idx hidx.two_le hidx.isIndex
  rw [h0] at e0; cases e0
  have P0 : (s 0).P = P := congrArg Simple.P a0
  have T0 : (s 0).time = time := congrArg Simple.time a0
  have R := chain_resolved AI hI (permOf hidx.isIndex)
  have key : ∀ i, i ≤ N → (ChainOf false P.mass (permOf hidx.isIndex) (s i) ∧ (s i).P.mass = P.mass) ∧ (it i).last = big ∧
      momentum (s i).P = momentum P ∧ massMoment (s i).P = massMoment P + ((s i).time - time) • momentum P ∧
      ∀ c, c < 3 → FlatFor (chainVelL P.mass (permOf hidx.isIndex) c) (it i).gr ∧
        FlatFor (chainPosL P.mass (permOf hidx.isIndex) c - Sys.comp (momentum P) c • timeL) (it i).gr := by
    intro i
    induction i with
    | zero =>
      intro _
      refine ⟨⟨⟨by rw [P0], fun k _ => by rw [P0], fun j => by rw [i0]; rfl, g0.weaken⟩, by rw [P0]⟩, by rw [hit]; rfl, by rw [P0],
        by rw [P0, T0, sub_self, zero_smul, add_zero], fun c _ => by rw [hit]; exact ⟨flat_new _, flat_new _⟩⟩
    | succ i ih =>
      intro hi
      obtain ⟨k1, k2, k3, k4, k5⟩ := ih (by omega)
      obtain ⟨e, hk⟩ := hc i (by omega)
      obtain ⟨b1, b2, b3, b4, b5, b6, b7, b8, b9, b10⟩ := chain_macro_any AI k1 k2 e
      obtain ⟨c1, c2, c3⟩ := R.kept b1 b2 b10 b9 (momentum P) (by show momentum ((s i).preIter IC).P = _; rw [b6, k3]) k5
      refine ⟨⟨⟨by rw [b4]; exact b2.1.num, by rw [b4]; exact b2.1.mass, fun j => by rw [hk j j.2]; exact k1.1.index j, b3⟩, by rw [b4]; exact b2.2⟩, b8,
        by rw [b4]; exact c1, ?_, c3⟩
      rw [b4, c2, b5, b6, b7, k4, add_assoc, ← add_smul]
      congr 2; ring
  exact ⟨(key N le_rfl).2.2.1, (key N le_rfl).2.2.2.1⟩

/-- C63, chain system, exact tables, whatever happens to the order of the chain: the momentum is exactly what it was, although the tables kept from the last
step belong to the old chain; and if every call that was made after the first change of the order made at least two corrections in the attempt it accepted, the centre
of mass has moved uniformly. -/
theorem C63_chain_reordered (c : Nat → ℝ) (big time : ℝ) (P : Particles) (idx : Arr Nat) (hidx : IndexOf P idx) (hI : AllForces I (NoNetForce P.num P.mass))
    (N : Nat) (s u : Nat → ChainSys) (it : Nat → IAS) (fuel : Nat → Nat) (H h' : Nat → ℝ) (h0 : ChainSys.init time P idx = .ok (s 0))
    (hit : it 0 = IAS.new big)
    (hc : ∀ i, i < N → Radau.ChainMacro (exact c) IC big (fuel i) (H i) (it i) (s i) (u i) (s (i + 1)) (it (i + 1)) (h' i)) :
    momentum (s N).P = momentum P ∧
      ((∀ i, i < N → (∀ j, j < i → ∀ k, k < P.num → (s (j + 1)).index k = (s j).index k) ∨
          CorrectedBy (exact c) (radauChain IC) ChainSys.Frame (SameChain IC) 2 big (H i) (it i) ((s i).preIter IC) (u i) (it (i + 1)) (h' i)) →
        massMoment (s N).P = massMoment P + ((s N).time - time) • momentum P) := by
  classical
  obtain ⟨s0, e0, g0, a0, i0⟩ := ChainSys.init_sim time P idx hidx.two_le hidx.isIndex
  rw [h0] at e0; cases e0
  have P0 : (s 0).P = P := congrArg Simple.P a0
  have T0 : (s 0).time = time := congrArg Simple.time a0
  have key : ∀ i, i ≤ N → (∃ σ : Fin P.num ≃ Fin P.num, ChainOf false P.mass σ (s i) ∧ (s i).P.mass = P.mass) ∧ (it i).last = big ∧ Radau.Consistent c (it i).gr ∧
      momentum (s i).P = momentum P ∧
      ((∀ j, j < i → ∀ k, k < P.num → (s (j + 1)).index k = (s j).index k) → ChainOf false P.mass (permOf hidx.isIndex) (s i) ∧
        ∀ e, e < 3 → FlatFor (chainVelL P.mass (permOf hidx.isIndex) e) (it i).gr ∧
          FlatFor (chainPosL P.mass (permOf hidx.isIndex) e - Sys.comp (momentum P) e • timeL) (it i).gr) ∧
      ((∀ j, j < i → (∀ l, l < j → ∀ k, k < P.num → (s (l + 1)).index k = (s l).index k) ∨
          CorrectedBy (exact c) (radauChain IC) ChainSys.Frame (SameChain IC) 2 big (H j) (it j) ((s j).preIter IC) (u j) (it (j + 1)) (h' j)) →
        massMoment (s i).P = massMoment P + ((s i).time - time) • momentum P) := by
    intro i
    induction i with
    | zero =>
      intro _
      exact ⟨⟨permOf hidx.isIndex, ⟨by rw [P0], fun k _ => by rw [P0], fun j => by rw [i0]; rfl, g0.weaken⟩, by rw [P0]⟩, by rw [hit]; rfl,
        by rw [hit]; exact consistent_new c, by rw [P0],
        fun _ => ⟨⟨by rw [P0], fun k _ => by rw [P0], fun j => by rw [i0]; rfl, g0.weaken⟩, fun e _ => by rw [hit]; exact ⟨flat_new _, flat_new _⟩⟩, fun _ => by rw [P0, T0, sub_self, zero_smul, add_zero]⟩
    | succ i ih =>
      intro hi
      obtain ⟨⟨σ, k1⟩, k2, k3, k4, kf, k5⟩ := ih (by omega)
      obtain ⟨b1, b2, b3, b4, b5, b6, b7, b8, b9, b10⟩ := chain_macro_any AI k1 k2 (hc i (by omega))
      have R := chain_resolved AI hI σ
      obtain ⟨mm, h, q, nn, g, y, E, se, a⟩ := (accepted_by _ _ _ _ _ _ _ _ _ _ _).1 b9
      obtain ⟨c1, c2, _⟩ := R.regained b1 b2 b10 k3 a
      have hn : (s (i + 1)).P.num = P.num := by rw [b4]; exact b2.1.num
      have hix := b3.cons.index
      rw [hn] at hix
      refine ⟨⟨permOf hix, ⟨hn, by rw [b4]; exact b2.1.mass, fun j => rfl, b3⟩, by rw [b4]; exact b2.2⟩, b8, c1, by rw [b4, c2, b6, k4], fun hk => ?_, fun h2 => ?_⟩
      · obtain ⟨f1, f2⟩ := kf fun j hj => hk j (by omega)
        obtain ⟨b1, b2, b3, b4, b5, b6, b7, b8, b9, b10⟩ := chain_macro_any AI ⟨f1, k1.2⟩ k2 (hc i (by omega))
        obtain ⟨_, _, c3⟩ := (chain_resolved AI hI (permOf hidx.isIndex)).kept b1 b2 b10 b9 (momentum P) (by show momentum ((s i).preIter IC).P = _; rw [b6, k4]) f2
        exact ⟨⟨by rw [b4]; exact b2.1.num, by rw [b4]; exact b2.1.mass, fun j => by rw [hk i (by omega) j j.2]; exact f1.index j, b3⟩, c3⟩
      have done : massMoment (u i).P = massMoment ((s i).preIter IC).P + ((u i).time - ((s i).preIter IC).time) • momentum ((s i).preIter IC).P := by
        rcases h2 i (by omega) with hk | ⟨mm', h', q', nn', g', y', E', se', hk, a'⟩
        · obtain ⟨f1, f2⟩ := kf hk
          obtain ⟨b1, b2, b3, _, _, b6, b7, b8, b9, b10⟩ := chain_macro_any AI ⟨f1, k1.2⟩ k2 (hc i (by omega))
          rw [b6, k4]
          have := ((chain_resolved AI hI (permOf hidx.isIndex)).kept b1 b2 b10 b9 (momentum P) (by show momentum ((s i).preIter IC).P = _; rw [b6, k4]) f2).2.1
          rw [b6] at this
          exact this
        · exact (R.regained b1 b2 b10 k3 a').2.2 (by omega)
      rw [b4, done, b5, b6, b7, k5 (fun j hj => h2 j (by omega)), k4, add_assoc, ← add_smul]
      congr 2; ring
  exact ⟨(key N le_rfl).2.2.2.1, (key N le_rfl).2.2.2.2.2⟩

/-- C63, chain system, any forces, any tables, whatever happens to the order of the chain: each call advances the clock by exactly the step asked for times the
ratios of the rejected attempts. -/
theorem C63_chain_clock (T : Tab) (big time : ℝ) (P : Particles) (idx : Arr Nat) (hidx : IndexOf P idx)
    (N : Nat) (s u : Nat → ChainSys) (it : Nat → IAS) (fuel : Nat → Nat) (H h' : Nat → ℝ) (h0 : ChainSys.init time P idx = .ok (s 0))
    (hit : it 0 = IAS.new big)
    (hc : ∀ i, i < N → Radau.ChainMacro T IC big (fuel i) (H i) (it i) (s i) (u i) (s (i + 1)) (it (i + 1)) (h' i)) (i : Nat) (hi : i < N) :
    ∃ (m : Nat) (q : Nat → ℝ), (∀ j, j < m → 0 < q j ∧ q j ≤ 1 / 4) ∧ (s (i + 1)).time = (s i).time + H i * ∏ j ∈ range m, q j := by
  obtain ⟨s0, e0, g0, a0, i0⟩ := ChainSys.init_sim time P idx hidx.two_le hidx.isIndex
  rw [h0] at e0; cases e0
  have P0 : (s 0).P = P := congrArg Simple.P a0
  have step : ∀ i, i < N → ((∃ σ : Fin P.num ≃ Fin P.num, ChainOf false P.mass σ (s i) ∧ (s i).P.mass = P.mass) ∧ (it i).last = big ∧ FlatFor timeL (it i).gr) →
      ((∃ σ : Fin P.num ≃ Fin P.num, ChainOf false P.mass σ (s (i + 1)) ∧ (s (i + 1)).P.mass = P.mass) ∧ (it (i + 1)).last = big ∧ FlatFor timeL (it (i + 1)).gr) ∧
      ∃ (m : Nat) (q : Nat → ℝ), (∀ j, j < m → 0 < q j ∧ q j ≤ 1 / 4) ∧ (s (i + 1)).time = (s i).time + H i * ∏ j ∈ range m, q j := by
    rintro i hi ⟨⟨σ, k1⟩, k2, k3⟩
    obtain ⟨b1, b2, b3, b4, b5, b6, b7, b8, b9, b10⟩ := chain_macro_any AI k1 k2 (hc i hi)
    obtain ⟨mm, h, q, nn, g, y, E, se, a⟩ := (accepted_by _ _ _ _ _ _ _ _ _ _ _).1 b9
    have r : Rates (radauChain IC) (fun x => ChainOf IC.velDep P.mass σ x ∧ x.P.mass = P.mass) 0 timeL 0 1 := fun x d hx e => by
      obtain ⟨_, c, _, e1⟩ := chain_deriv AI hx.1.good e
      refine ⟨rfl, fun _ => ?_⟩
      rw [e1]
      exact timeL_flat IC.velDep ({ x with time := 1, cpos := x.cvel, cvel := c, caux := c } : ChainSys).flat _ (ChainSys.write_getD IC _)
    have hlen : 0 < ((radauChain IC).write ((s i).preIter IC)).length := by
      rw [chain_length AI b1.1]
      have := hidx.two_le
      omega
    obtain ⟨_, c2, _, c4⟩ := flat_on b10 (fun x y v hx e => chain_loads hx e) (fun x d hx e => chain_keeps AI hx e) r (fun _ _ _ => rfl) (fun f g h => h 0 hlen) rfl
      (fun _ _ => ⟨rfl, rfl, rfl⟩) k3 a
    have hn : (s (i + 1)).P.num = P.num := by rw [b4]; exact b2.1.num
    have hix := b3.cons.index
    rw [hn] at hix
    refine ⟨⟨⟨permOf hix, ⟨hn, by rw [b4]; exact b2.1.mass, fun j => rfl, b3⟩, by rw [b4]; exact b2.2⟩, b8, c2⟩, mm, q, ?_, ?_⟩
    · exact fun j hj => ⟨(a.2.2.1 j hj).2.1, (a.2.2.1 j hj).2.2.1⟩
    · have t1 := timeL_flat IC.velDep (u i).flat (GR.toArr ((radauChain IC).write (u i))) (ChainSys.write_getD IC (u i))
      have t2 := timeL_flat IC.velDep ((s i).preIter IC).flat (GR.toArr ((radauChain IC).write ((s i).preIter IC))) (ChainSys.write_getD IC ((s i).preIter IC))
      rw [t1, t2, one_mul] at c4
      rw [b5, ← b7]
      have hp : ∀ j, j ≤ mm → h j = H i * ∏ l ∈ range j, q l := by
        intro j
        induction j with
        | zero => intro _; rw [a.1, range_zero, prod_empty, mul_one]
        | succ j ih => intro hj; rw [(a.2.2.1 j (by omega)).1, ih (by omega), prod_range_succ]; ring
      rw [← hp mm le_rfl]
      exact c4
  have key : ∀ i, i ≤ N → (∃ σ : Fin P.num ≃ Fin P.num, ChainOf false P.mass σ (s i) ∧ (s i).P.mass = P.mass) ∧ (it i).last = big ∧ FlatFor timeL (it i).gr := by
    intro i
    induction i with
    | zero => exact fun _ => ⟨⟨permOf hidx.isIndex, ⟨by rw [P0], fun k _ => by rw [P0], fun j => by rw [i0]; rfl, g0.weaken⟩, by rw [P0]⟩, by rw [hit]; rfl, by rw [hit]; exact flat_new _⟩
    | succ i ih => exact fun hi => (step i (by omega) (ih (by omega))).1
  exact (step i hi (key i hi.le)).2

/-- a macro step of an AR-chain system, any tables -/
theorem ar_macro_any {G : ℝ} {type : ReguType} {n : Nat} {m : Arr ℝ} (hI : AllForces I (NoNetForce n m)) {σ : Fin n ≃ Fin n} {T : Tab} {big H h' : ℝ} {fuel : Nat}
    {it it' : IAS} {s u s' : ARSys} (hs : AROf false m σ s ∧ s.P.mass = m) (hl : it.last = big) (e : Radau.ARMacro T G type IC big fuel H it s u s' it' h') :
    (AROf IC.velDep m σ (s.preIter IC) ∧ (s.preIter IC).P.mass = m) ∧ (AROf IC.velDep m σ u ∧ u.P.mass = m) ∧ ARSys.Good false s' ∧ s'.P = u.P ∧
      s'.time = u.time ∧ (s.preIter IC).P = s.P ∧ (s.preIter IC).time = s.time ∧ it'.last = big ∧
      Accepted T (radauAR G type IC) big ARSys.Frame (SameAR IC) H it (s.preIter IC) u it' h' ∧
      ∀ y, SameAR IC (s.preIter IC) y → AROf IC.velDep m σ y ∧ y.P.mass = m := by
  obtain ⟨e1, idx, hi, e2⟩ := e
  have fp : ARSys.Frame s (s.preIter IC) := by unfold ARSys.preIter; split_ifs <;> exact ⟨rfl, rfl, rfl⟩
  have ep : (s.preIter IC).P = s.P ∧ (s.preIter IC).time = s.time := by unfold ARSys.preIter; split_ifs <;> exact ⟨rfl, rfl⟩
  obtain ⟨gp, _⟩ := ARSys.preIter_sim AI hs.1.good
  rw [← AI.velDep_eq] at gp
  have hp : AROf IC.velDep m σ (s.preIter IC) ∧ (s.preIter IC).P.mass = m := ⟨hs.1.of fp gp, by rw [ep.1]; exact hs.2⟩
  have R := ar_resolved (G := G) (type := type) AI hI σ
  have hu := iterate_keep (T := T) (O := radauAR G type IC) (ok := fun x => AROf IC.velDep m σ x ∧ x.P.mass = m)
    (fun x y v hx e => (R.read x y v hx e).1) (fun x d hx e => R.keep x d hx e) big fuel 0 H it _ u it' h' hp e1
  obtain ⟨s'', e3, g3, a3, _⟩ := ARSys.postIter_sim hu.1.good.weaken idx hi.isIndex
  rw [e2] at e3; cases e3
  exact ⟨hp, hu, g3, congrArg ReguSys.P a3, congrArg ReguSys.time a3, ep.1, ep.2, iterate_last T _ big fuel _ _ _ _ _ _ _ e1,
    accepted (ar_radau G type IC _ hp.1.good.cons) big fuel H it it' u h' hl e1,
    fun y hy => ⟨hp.1.of ⟨hy.2.1, hy.2.2.1, hy.2.2.2.1⟩ (same_good_ar hp.1.good hy), hy.2.2.1.trans hp.2⟩⟩

/-- C63, AR-chain system: as `C63_chain`. -/
theorem C63_archain (T : Tab) (G : ℝ) (type : ReguType) (big time : ℝ) (P : Particles) (idx : Arr Nat) (hidx : IndexOf P idx)
    (hI : AllForces I (NoNetForce P.num P.mass))
    (N : Nat) (s u : Nat → ARSys) (it : Nat → IAS) (fuel : Nat → Nat) (H h' : Nat → ℝ) (h0 : ARSys.init G type time P idx = .ok (s 0))
    (hit : it 0 = IAS.new big)
    (hc : ∀ i, i < N → Radau.ARMacro T G type IC big (fuel i) (H i) (it i) (s i) (u i) (s (i + 1)) (it (i + 1)) (h' i) ∧
      ∀ k, k < P.num → (s (i + 1)).index k = (s i).index k) :
    momentum (s N).P = momentum P ∧ massMoment (s N).P = massMoment P + ((s N).time - time) • momentum P := by
  obtain ⟨s0, e0, g0, a0, i0⟩ := ARSys.init_sim G type time P idx hidx.two_le hidx.isIndex
  rw [h0] at e0; cases e0
  have P0 : (s 0).P = P := congrArg ReguSys.P a0
  have T0 : (s 0).time = time := congrArg ReguSys.time a0
  have R := ar_resolved (G := G) (type := type) AI hI (permOf hidx.isIndex)
  have key : ∀ i, i ≤ N → (AROf false P.mass (permOf hidx.isIndex) (s i) ∧ (s i).P.mass = P.mass) ∧ (it i).last = big ∧
      momentum (s i).P = momentum P ∧ massMoment (s i).P = massMoment P + ((s i).time - time) • momentum P ∧
      ∀ c, c < 3 → FlatFor (chainVelL P.mass (permOf hidx.isIndex) c) (it i).gr ∧
        FlatFor (chainPosL P.mass (permOf hidx.isIndex) c - Sys.comp (momentum P) c • timeL) (it i).gr := by
    intro i
    induction i with
    | zero =>
      intro _
      refine ⟨⟨⟨by rw [P0], fun k _ => by rw [P0], fun j => by rw [i0]; rfl, g0.weaken⟩, by rw [P0]⟩, by rw [hit]; rfl, by rw [P0],
        by rw [P0, T0, sub_self, zero_smul, add_zero], fun c _ => by rw [hit]; exact ⟨flat_new _, flat_new _⟩⟩
    | succ i ih =>
      intro hi
      obtain ⟨k1, k2, k3, k4, k5⟩ := ih (by omega)
      obtain ⟨e, hk⟩ := hc i (by omega)
      obtain ⟨b1, b2, b3, b4, b5, b6, b7, b8, b9, b10⟩ := ar_macro_any AI hI k1 k2 e
      obtain ⟨c1, c2, c3⟩ := R.kept b1 b2 b10 b9 (momentum P) (by show momentum ((s i).preIter IC).P = _; rw [b6, k3]) k5
      refine ⟨⟨⟨by rw [b4]; exact b2.1.num, by rw [b4]; exact b2.1.mass, fun j => by rw [hk j j.2]; exact k1.1.index j, b3⟩, by rw [b4]; exact b2.2⟩, b8,
        by rw [b4]; exact c1, ?_, c3⟩
      rw [b4, c2, b5, b6, b7, k4, add_assoc, ← add_smul]
      congr 2; ring
  exact ⟨(key N le_rfl).2.2.1, (key N le_rfl).2.2.2.1⟩

/-- C63, AR-chain system: as `C63_chain_reordered`. -/
theorem C63_archain_reordered (c : Nat → ℝ) (G : ℝ) (type : ReguType) (big time : ℝ) (P : Particles) (idx : Arr Nat) (hidx : IndexOf P idx)
    (hI : AllForces I (NoNetForce P.num P.mass))
    (N : Nat) (s u : Nat → ARSys) (it : Nat → IAS) (fuel : Nat → Nat) (H h' : Nat → ℝ) (h0 : ARSys.init G type time P idx = .ok (s 0))
    (hit : it 0 = IAS.new big)
    (hc : ∀ i, i < N → Radau.ARMacro (exact c) G type IC big (fuel i) (H i) (it i) (s i) (u i) (s (i + 1)) (it (i + 1)) (h' i)) :
    momentum (s N).P = momentum P ∧
      ((∀ i, i < N → (∀ j, j < i → ∀ k, k < P.num → (s (j + 1)).index k = (s j).index k) ∨
          CorrectedBy (exact c) (radauAR G type IC) ARSys.Frame (SameAR IC) 2 big (H i) (it i) ((s i).preIter IC) (u i) (it (i + 1)) (h' i)) →
        massMoment (s N).P = massMoment P + ((s N).time - time) • momentum P) := by
  classical
  obtain ⟨s0, e0, g0, a0, i0⟩ := ARSys.init_sim G type time P idx hidx.two_le hidx.isIndex
  rw [h0] at e0; cases e0
  have P0 : (s 0).P = P := congrArg ReguSys.P a0
  have T0 : (s 0).time = time := congrArg ReguSys.time a0
  have key : ∀ i, i ≤ N → (∃ σ : Fin P.num ≃ Fin P.num, AROf false P.mass σ (s i) ∧ (s i).P.mass = P.mass) ∧ (it i).last = big ∧ Radau.Consistent c (it i).gr ∧
      momentum (s i).P = momentum P ∧
      ((∀ j, j < i → ∀ k, k < P.num → (s (j + 1)).index k = (s j).index k) → AROf false P.mass (permOf hidx.isIndex) (s i) ∧
        ∀ e, e < 3 → FlatFor (chainVelL P.mass (permOf hidx.isIndex) e) (it i).gr ∧
          FlatFor (chainPosL P.mass (permOf hidx.isIndex) e - Sys.comp (momentum P) e • timeL) (it i).gr) ∧
      ((∀ j, j < i → (∀ l, l < j → ∀ k, k < P.num → (s (l + 1)).index k = (s l).index k) ∨
          CorrectedBy (exact c) (radauAR G type IC) ARSys.Frame (SameAR IC) 2 big (H j) (it j) ((s j).preIter IC) (u j) (it (j + 1)) (h' j)) →
        massMoment (s i).P = massMoment P + ((s i).time - time) • momentum P) := by
    intro i
    induction i with
    | zero =>
      intro _
      exact ⟨⟨permOf hidx.isIndex, ⟨by rw [P0], fun k _ => by rw [P0], fun j => by rw [i0]; rfl, g0.weaken⟩, by rw [P0]⟩, by rw [hit]; rfl,
        by rw [hit]; exact consistent_new c, by rw [P0],
        fun _ => ⟨⟨by rw [P0], fun k _ => by rw [P0], fun j => by rw [i0]; rfl, g0.weaken⟩, fun e _ => by rw [hit]; exact ⟨flat_new _, flat_new _⟩⟩, fun _ => by rw [P0, T0, sub_self, zero_smul, add_zero]⟩
    | succ i ih =>
      intro hi
      obtain ⟨⟨σ, k1⟩, k2, k3, k4, kf, k5⟩ := ih (by omega)
      obtain ⟨b1, b2, b3, b4, b5, b6, b7, b8, b9, b10⟩ := ar_macro_any AI hI k1 k2 (hc i (by omega))
      have R := ar_resolved (G := G) (type := type) AI hI σ
      obtain ⟨mm, h, q, nn, g, y, E, se, a⟩ := (accepted_by _ _ _ _ _ _ _ _ _ _ _).1 b9
      obtain ⟨c1, c2, _⟩ := R.regained b1 b2 b10 k3 a
      have hn : (s (i + 1)).P.num = P.num := by rw [b4]; exact b2.1.num
      have hix := b3.cons.index
      rw [hn] at hix
      refine ⟨⟨permOf hix, ⟨hn, by rw [b4]; exact b2.1.mass, fun j => rfl, b3⟩, by rw [b4]; exact b2.2⟩, b8, c1, by rw [b4, c2, b6, k4], fun hk => ?_, fun h2 => ?_⟩
      · obtain ⟨f1, f2⟩ := kf fun j hj => hk j (by omega)
        obtain ⟨b1, b2, b3, b4, b5, b6, b7, b8, b9, b10⟩ := ar_macro_any AI hI ⟨f1, k1.2⟩ k2 (hc i (by omega))
        obtain ⟨_, _, c3⟩ := (ar_resolved (G := G) (type := type) AI hI (permOf hidx.isIndex)).kept b1 b2 b10 b9 (momentum P) (by show momentum ((s i).preIter IC).P = _; rw [b6, k4]) f2
        exact ⟨⟨by rw [b4]; exact b2.1.num, by rw [b4]; exact b2.1.mass, fun j => by rw [hk i (by omega) j j.2]; exact f1.index j, b3⟩, c3⟩
      have done : massMoment (u i).P = massMoment ((s i).preIter IC).P + ((u i).time - ((s i).preIter IC).time) • momentum ((s i).preIter IC).P := by
        rcases h2 i (by omega) with hk | ⟨mm', h', q', nn', g', y', E', se', hk, a'⟩
        · obtain ⟨f1, f2⟩ := kf hk
          obtain ⟨b1, b2, b3, _, _, b6, b7, b8, b9, b10⟩ := ar_macro_any AI hI ⟨f1, k1.2⟩ k2 (hc i (by omega))
          rw [b6, k4]
          have := ((ar_resolved (G := G) (type := type) AI hI (permOf hidx.isIndex)).kept b1 b2 b10 b9 (momentum P) (by show momentum ((s i).preIter IC).P = _; rw [b6, k4]) f2).2.1
          rw [b6] at this
          exact this
        · exact (R.regained b1 b2 b10 k3 a').2.2 (by omega)
      rw [b4, done, b5, b6, b7, k5 (fun j hj => h2 j (by omega)), k4, add_assoc, ← add_smul]
      congr 2; ring
  exact ⟨(key N le_rfl).2.2.2.1, (key N le_rfl).2.2.2.2.2⟩

end

end SpaceHub.Props
