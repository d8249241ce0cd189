import Verif.Props.IAS15
import Verif.Props.BSConserve

/-
Linear functionals of the variables along IAS15 steps.
-/

set_option autoImplicit false

namespace SpaceHub.Radau
open SpaceHub SpaceHub.Sys SpaceHub.Props Finset Ctl Fl

variable {S : Type}

/-- the functional vanishes on all coefficient tables -/
def FlatFor (L : (Nat → ℝ) →ₗ[ℝ] ℝ) (r : GR) : Prop := ∀ j, j < 7 → L (r.b j) = 0 ∧ L (r.g j) = 0 ∧ L (r.old j) = 0

/-- the functional only looks at the first `N` entries -/
def LocalTo (N : Nat) (L : (Nat → ℝ) →ₗ[ℝ] ℝ) : Prop := ∀ f g : Nat → ℝ, (∀ v, v < N → f v = g v) → L f = L g

theorem flat_new (L : (Nat → ℝ) →ₗ[ℝ] ℝ) : FlatFor L GR.new := fun _ _ => ⟨L.map_zero, L.map_zero, L.map_zero⟩

theorem flat_update {L : (Nat → ℝ) →ₗ[ℝ] ℝ} (T : Tab) {r : GR} (h : FlatFor L r) (hd : L r.dyh = L r.dy0) (stage : Nat) (hs : stage < 7) :
    FlatFor L (r.updateB T stage) := by
  have hnew : L (newG T r stage) = 0 := by
    have e : newG T r stage = T.rs stage 0 • (r.dyh - r.dy0) - ∑ j ∈ range stage, T.rs stage (j + 1) • r.g j := by
      funext v
      simp only [newG, Pi.sub_apply, Pi.smul_apply, smul_eq_mul, Finset.sum_apply]
      rw [mul_comm]; congr 1
      exact sum_congr rfl fun j _ => mul_comm _ _
    rw [e, map_sub, map_smul, map_sub, hd, sub_self, smul_zero, map_sum, zero_sub, neg_eq_zero]
    exact sum_eq_zero fun j hj => by rw [map_smul, (h j (by have := mem_range.1 hj; omega)).2.1, smul_zero]
  intro j hj
  refine ⟨?_, ?_, (h j hj).2.2⟩
  · rcases Nat.lt_or_ge stage j with hlt | hge
    · rw [(updateB_eq T r stage 0).2.2.2.2 j hlt]; exact (h j hj).1
    · have e : (r.updateB T stage).b j = r.b j + T.g2b stage j • (newG T r stage - r.g stage) := by
        funext v
        rw [(updateB_eq T r stage v).2.2.2.1 j hge]
        simp only [Pi.add_apply, Pi.smul_apply, Pi.sub_apply, smul_eq_mul]; ring
      rw [e, map_add, map_smul, map_sub, hnew, (h j hj).1, (h stage hs).2.1]; simp
  · by_cases hjs : j = stage
    · subst hjs
      rw [show (r.updateB T j).g j = newG T r j from funext fun v => (updateB_eq T r j v).1]; exact hnew
    · rw [(updateB_eq T r stage 0).2.1 j hjs]; exact (h j hj).2.1

theorem flat_predict {L : (Nat → ℝ) →ₗ[ℝ] ℝ} (T : Tab) {r : GR} (h : FlatFor L r) (q : ℝ) : FlatFor L (r.predict T q) := by
  have he : ∀ i, i < 7 → L (reexpand T r.b q i) = 0 := by
    intro i hi
    have e : reexpand T r.b q i = q ^ (i + 1) • ∑ j ∈ Ico i 7, T.estB j i • r.b j := by
      funext v
      simp only [reexpand, Pi.smul_apply, smul_eq_mul, Finset.sum_apply]
      congr 1
      exact sum_congr rfl fun j _ => mul_comm _ _
    rw [e, map_smul, map_sum]
    rw [sum_eq_zero fun j hj => by rw [map_smul, (h j (mem_Ico.1 hj).2).1, smul_zero], smul_zero]
  have hb : ∀ i, i < 7 → L ((r.predict T q).b i) = 0 := by
    intro i hi
    have e : (r.predict T q).b i = reexpand T r.b q i + (r.b i - r.old i) := by
      funext v; rw [(predict_eq T r q i v hi).1]; rfl
    rw [e, map_add, map_sub, he i hi, (h i hi).1, (h i hi).2.2]; simp
  refine fun j hj => ⟨hb j hj, ?_, ?_⟩
  · have e : (r.predict T q).g j = ∑ k ∈ Ico j 7, T.b2g k j • (r.predict T q).b k := by
      funext v
      rw [(predict_eq T r q j v hj).2.2, transformB2G_eq _ _ _ _ hj]
      simp only [Finset.sum_apply, Pi.smul_apply, smul_eq_mul]
      exact sum_congr rfl fun k _ => mul_comm _ _
    rw [e, map_sum]
    exact sum_eq_zero fun k hk => by rw [map_smul, hb k (mem_Ico.1 hk).2, smul_zero]
  · rw [show (r.predict T q).old j = reexpand T r.b q j from funext fun v => (predict_eq T r q j v hj).2.1]; exact he j hj

/-- the functional of the start plus an integral of the slope polynomial -/
theorem flat_integral {L : (Nat → ℝ) →ₗ[ℝ] ℝ} {N : Nat} (hL : LocalTo N L) {r : GR} (h : FlatFor L r) (H x : ℝ) (y0 y : List ℝ)
    (hy : ∀ v, v < N → y.getD v 0 = y0.getD v 0 + H * ∫ τ in (0 : ℝ)..x, slope (r.dy0 v) (fun j => r.b j v) τ) :
    L (GR.toArr y) = L (GR.toArr y0) + H * x * L r.dy0 := by
  have e : L (GR.toArr y) = L (GR.toArr y0 + (H * x) • (r.dy0 + ∑ j ∈ range 7, (x ^ (j + 1) / (j + 2)) • r.b j)) := by
    refine hL _ _ fun v hv => ?_
    show y.getD v 0 = _
    rw [hy v hv, slope_integral]
    simp only [Pi.add_apply, Pi.smul_apply, smul_eq_mul, Finset.sum_apply]
    have : ∑ j ∈ range 7, r.b j v * x ^ (j + 1) / ((j : ℝ) + 2) = ∑ j ∈ range 7, x ^ (j + 1) / ((j : ℝ) + 2) * r.b j v :=
      sum_congr rfl fun j _ => by ring
    rw [this]
    show y0.getD v 0 + _ = y0.getD v 0 + _
    ring
  rw [e, map_add, map_smul, map_add, map_sum]
  rw [sum_eq_zero fun j hj => by rw [map_smul, (h j (mem_range.1 hj)).1, smul_zero], add_zero, smul_eq_mul]

/-- What a derivative does to two functionals: the first does not change, the second changes at the rate `κ` wherever the first
has the value `p`. -/
def Rates (O : RSys S) (ok : S → Prop) (L1 L2 : (Nat → ℝ) →ₗ[ℝ] ℝ) (p κ : ℝ) : Prop :=
  ∀ x d, ok x → O.deriv x = .ok d → L1 (GR.toArr d.1) = 0 ∧ (L1 (GR.toArr (O.write x)) = p → L2 (GR.toArr d.1) = κ)

theorem flat_checkSize {L : (Nat → ℝ) →ₗ[ℝ] ℝ} {r R0 : GR} (h : FlatFor L r) (ho : R0.old = r.old ∨ ∀ j v, R0.old j v = 0)
    (h0 : (R0.b = r.b ∧ R0.g = r.g) ∨ ((∀ j v, R0.b j v = 0) ∧ ∀ j v, R0.g j v = 0)) : FlatFor L R0 := by
  intro j hj
  have z : ∀ A : Arr (Arr ℝ), (∀ j v, A j v = 0) → L (A j) = 0 := fun A hA => by
    rw [show A j = 0 from funext fun v => hA j v, map_zero]
  refine ⟨?_, ?_, ?_⟩
  · rcases h0 with ⟨e1, _⟩ | ⟨e1, _⟩
    · rw [e1]; exact (h j hj).1
    · exact z _ e1
  · rcases h0 with ⟨_, e1⟩ | ⟨_, e1⟩
    · rw [e1]; exact (h j hj).2.1
    · exact z _ e1
  · rcases ho with e1 | e1
    · rw [e1]; exact (h j hj).2.2
    · exact z _ e1

theorem correct_old {T : Tab} {O : RSys S} {H : ℝ} {r r' : GR} {s s' : S} (e : correct T O H r s = .ok (s', r')) :
    r'.old = r.old ∨ ∀ j v, r'.old j v = 0 := by
  unfold correct at e
  dsimp only at e
  obtain ⟨d, e1, e⟩ := Res.bind_eq_ok.1 e
  obtain ⟨R, st, X, D, p, q1, q2, q3, q4⟩ := sweep_path T O H 7 0 _ _ _ _ e
  have h := (p.fixed 7 le_rfl).2.2.2
  rw [q3] at h
  rw [h, q1]
  unfold GR.checkSize
  by_cases hn : r.num = (O.write s).length
  · rw [if_neg (not_not.2 hn)]; exact .inl rfl
  · rw [if_pos hn]; exact .inr fun _ _ => rfl

/-- one correction keeps the tables flat -/
theorem flat_correct {T : Tab} {O : RSys S} {ok : S → Prop} {L1 L2 : (Nat → ℝ) →ₗ[ℝ] ℝ} {p κ : ℝ} (hR : Rates O ok L1 L2 p κ)
    (hrd : ∀ x y v, ok x → O.read x v = .ok y → ok y ∧ O.write y = v) (hdv : ∀ x d, ok x → O.deriv x = .ok d → ok d.2)
    {N : Nat} (hL1 : LocalTo N L1) {H : ℝ} {r r' : GR} {s s' : S} (hs : ok s)
    (hN : (O.write s).length = N) (hp : L1 (GR.toArr (O.write s)) = p) (h1 : FlatFor L1 r) (h2 : FlatFor L2 r)
    (e : correct T O H r s = .ok (s', r')) :
    FlatFor L1 r' ∧ FlatFor L2 r' ∧ L1 r'.dy0 = 0 ∧ L2 r'.dy0 = κ ∧ r'.input = O.write s := by
  have hold := correct_old e
  obtain ⟨d, R, st, X, D, hd, pth, h0, h7, hR7, hin, hdy, hnum, hbg⟩ := correct_path e
  have ho : (R 0).old = r.old ∨ ∀ j v, (R 0).old j v = 0 := by
    rw [← (pth.fixed 7 le_rfl).2.2.2, hR7]; exact hold
  have hbg' : ((R 0).b = r.b ∧ (R 0).g = r.g) ∨ ((∀ j v, (R 0).b j v = 0) ∧ ∀ j v, (R 0).g j v = 0) := by
    rcases hbg with ⟨_, a, b⟩ | ⟨_, a, b⟩
    · exact .inl ⟨a, b⟩
    · exact .inr ⟨a, b⟩
  have hdy0 : ∀ n, n ≤ 7 → (R n).dy0 = GR.toArr d.1 := fun n hn => (pth.fixed n hn).2.1.trans hdy
  obtain ⟨r1, r2⟩ := hR s d hs hd
  have r2 := r2 hp
  have hst : ∀ n, n ≤ 7 → ok (st n) := by
    intro n
    induction n with
    | zero => intro _; rw [h0]; exact hdv s d hs hd
    | succ n ih =>
      intro hn
      have a := (hrd _ _ _ (ih (by omega)) (pth.read n (Nat.zero_le _) (by omega))).1
      have b := hdv _ _ a (pth.deriv n (Nat.zero_le _) (by omega))
      exact (hrd _ _ _ b (pth.back n (Nat.zero_le _) (by omega))).1
  have key : ∀ n, n ≤ 7 → FlatFor L1 (R n) ∧ FlatFor L2 (R n) := by
    intro n
    induction n with
    | zero => intro _; exact ⟨flat_checkSize h1 ho hbg', flat_checkSize h2 ho hbg'⟩
    | succ n ih =>
      intro hn
      obtain ⟨a1, a2⟩ := ih (by omega)
      obtain ⟨b1, b2⟩ := hrd _ _ _ (hst n (by omega)) (pth.read n (Nat.zero_le _) (by omega))
      have hstage : L1 (GR.toArr (O.write (X n))) = p := by
        rw [b2]
        obtain ⟨_, c2⟩ := stageState_eq T (R n) H n
        have hi : (R n).input = O.write s := (pth.fixed n (by omega)).1.trans hin
        rw [hi, hN] at c2
        rw [flat_integral hL1 a1 H (T.h n) (O.write s) _ c2, hdy0 n (by omega), r1, mul_zero, add_zero, hp]
      obtain ⟨c1, c2⟩ := hR _ _ b1 (pth.deriv n (Nat.zero_le _) (by omega))
      have c2 := c2 hstage
      rw [pth.next n (Nat.zero_le _) (by omega)]
      have d0 := hdy0 n (by omega)
      constructor
      · refine flat_update T (r := { R n with dyh := GR.toArr (D n).1 }) a1 ?_ n (by omega)
        show L1 (GR.toArr (D n).1) = L1 (R n).dy0
        rw [d0, r1, c1]
      · refine flat_update T (r := { R n with dyh := GR.toArr (D n).1 }) a2 ?_ n (by omega)
        show L2 (GR.toArr (D n).1) = L2 (R n).dy0
        rw [d0, r2, c2]
  have := key 7 le_rfl
  rw [hR7] at this
  refine ⟨this.1, this.2, ?_, ?_, ?_⟩
  · rw [← hR7, hdy0 7 le_rfl]; exact r1
  · rw [← hR7, hdy0 7 le_rfl]; exact r2
  · rw [← hR7, (pth.fixed 7 le_rfl).1, hin]

/-- an accepted step: the first functional keeps its value, the second has advanced by `κ` times the accepted length -/
theorem flat_step {T : Tab} {O : RSys S} {s s' : S} {frame same : S → S → Prop} (L : RLawful O s frame same) (hsf : ∀ x, same s x → frame s x)
    {L1 L2 : (Nat → ℝ) →ₗ[ℝ] ℝ} {p κ : ℝ} (hR : Rates O (frame s) L1 L2 p κ)
    (hL1 : LocalTo (O.write s).length L1) (hL2 : LocalTo (O.write s).length L2) (hp : L1 (GR.toArr (O.write s)) = p)
    {big H h' : ℝ} {it it' : IAS} (h1 : FlatFor L1 it.gr) (h2 : FlatFor L2 it.gr)
    (a : Accepted T O big frame same H it s s' it' h') :
    FlatFor L1 it'.gr ∧ FlatFor L2 it'.gr ∧ L1 (GR.toArr (O.write s')) = p ∧
    ∃ (m : Nat) (q : Nat → ℝ), (∀ i, i < m → 0 < q i ∧ q i ≤ 1 / 4) ∧
      L2 (GR.toArr (O.write s')) = L2 (GR.toArr (O.write s)) + κ * (H * ∏ i ∈ range m, q i) := by
  obtain ⟨m, h, q, n, g, y, E, se, a1, a2, a3, a4, _, _, _, _, a5, _, _, a6⟩ := a
  have hrd : ∀ x y v, frame s x → O.read x v = .ok y → frame s y ∧ O.write y = v := fun x y v hx e =>
    ⟨L.trans _ _ _ hx (L.read x y v hx e).1, (L.read x y v hx e).2⟩
  have hdv : ∀ x d, frame s x → O.deriv x = .ok d → frame s d.2 := fun x d hx e => L.trans _ _ _ hx (L.deriv x d e)
  have pass : ∀ i, i ≤ m → FlatFor L1 (g i 0) → FlatFor L2 (g i 0) → ∀ j, j ≤ n i + 1 →
      FlatFor L1 (g i j) ∧ FlatFor L2 (g i j) ∧ (j ≠ 0 → L1 (g i j).dy0 = 0 ∧ L2 (g i j).dy0 = κ ∧ (g i j).input = O.write s) := by
    intro i hi f1 f2 j
    induction j with
    | zero => intro _; exact ⟨f1, f2, fun h => absurd rfl h⟩
    | succ j ih =>
      intro hj
      obtain ⟨b1, b2, _⟩ := ih (by omega)
      obtain ⟨c1, c2⟩ := (a4 i hi).2 j (by omega)
      obtain ⟨d1, d2, d3, d4, d5⟩ := flat_correct hR hrd hdv (N := (O.write s).length) hL1 (hsf _ c1) (by rw [c2]) (by rw [c2]; exact hp)
        b1 b2 ((a4 i hi).1.pass j (by omega)).1
      exact ⟨d1, d2, fun _ => ⟨d3, d4, by rw [d5, c2]⟩⟩
  have start : ∀ i, i ≤ m → FlatFor L1 (g i 0) ∧ FlatFor L2 (g i 0) := by
    intro i
    induction i with
    | zero => intro _; rw [a2]; exact ⟨h1, h2⟩
    | succ i ih =>
      intro hi
      obtain ⟨b1, b2⟩ := ih (by omega)
      obtain ⟨c1, c2, _⟩ := pass i (by omega) b1 b2 (n i + 1) le_rfl
      rw [(a3 i (by omega)).2.2.2]
      split_ifs
      · exact ⟨flat_predict T c1 _, flat_predict T c2 _⟩
      · exact ⟨c1, c2⟩
  obtain ⟨c1, c2, c3⟩ := pass m le_rfl (start m le_rfl).1 (start m le_rfl).2 (n m + 1) le_rfl
  obtain ⟨c3, c4, c5⟩ := c3 (by omega)
  have hh : ∀ i, i ≤ m → h i = H * ∏ k ∈ range i, q k := by
    intro i
    induction i with
    | zero => intro _; rw [a1]; simp
    | succ i ih => intro hi; rw [(a3 i (by omega)).1, ih (by omega), prod_range_succ]; ring
  rw [a5]
  refine ⟨flat_predict T c1 _, flat_predict T c2 _, ?_, m, q, fun i hi => ⟨(a3 i hi).2.1, (a3 i hi).2.2.1⟩, ?_⟩
  · rw [flat_integral hL1 c1 (h m) 1 (O.write s) _ a6, c3, mul_zero, add_zero, hp]
  · rw [flat_integral hL2 c2 (h m) 1 (O.write s) _ a6, c4, hh m le_rfl]; ring

end SpaceHub.Radau
