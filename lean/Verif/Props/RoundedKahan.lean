import Verif.Props.RoundedRun
import Verif.Proof.RoundedKahan

/-
C114: rounding errors of a simulation with compensated types.
-/

set_option autoImplicit false

namespace SpaceHub.Rounded
open SpaceHub V3 Force Core Integrator Spec Sys Props Converge

/-! ### exact arithmetic -/

/-- In IEEE arithmetic the sum is that of the model of the compensated types (C34). -/
theorem kadd_ieee (rnd : ℝ → ℝ) (a : Comp.Num) (x : ℝ) : kadd (ieee rnd) a x = Comp.Kahan.add rnd a x := rfl

theorem kadd_exact (a x : ℝ) : kadd .exact (.of a) x = .of (a + x) := by
  show Comp.Num.mk (a + (x - 0)) (a + (x - 0) - a - (x - 0)) = ⟨a + x, 0⟩
  rw [sub_zero, Comp.Num.mk.injEq]
  exact ⟨rfl, by ring⟩

/-- a vector of numbers without error -/
def ofV (a : V3 ℝ) : V3 Comp.Num := ⟨.of a.x, .of a.y, .of a.z⟩

theorem kadvance_exact (n : Nat) (var inc : Arr (V3 ℝ)) (d : ℝ) : kadvance .exact n (fun k => ofV (var k)) inc d = fun k => ofV (Rounded.advance .exact n var inc d k) := by
  funext k
  rw [kadvance_apply, advance_exact_apply]
  by_cases h : k < n
  · rw [if_pos h, if_pos h]
    show V3.mk (kadd .exact (.of (var k).x) _) (kadd .exact (.of (var k).y) _) (kadd .exact (.of (var k).z) _) = _
    rw [kadd_exact, kadd_exact, kadd_exact]
    rfl
  · rw [if_neg h, if_neg h]

theorem kstage_exact (h : ℝ) (c : Stage) (s : Simple) :
    kstage .exact h c (.init s.time s.P) = .init (stage .exact h c s).time (stage .exact h c s).P := by
  cases c with
  | drift c =>
    show KSimple.mk _ _ (kadvance .exact s.P.num (fun k => ofV (s.P.pos k)) s.P.vel (c * h)) _ (kadd .exact (.of s.time) (c * h)) = _
    rw [kadvance_exact, kadd_exact]
    rfl
  | kick c =>
    show KSimple.mk _ _ _ (kadvance .exact s.P.num (fun k => ofV (s.P.vel k)) (acc .exact s.P) (c * h)) _ = _
    rw [kadvance_exact]
    rfl

theorem kstep_exact (h : ℝ) (stages : List Stage) : ∀ s : Simple,
    kstep .exact stages h (.init s.time s.P) = .init (step .exact stages h s).time (step .exact stages h s).P := by
  induction stages with
  | nil => exact fun s => rfl
  | cons c l ih =>
    intro s
    show kstep .exact l h (kstage .exact h c (.init s.time s.P)) = _
    rw [kstage_exact]
    exact ih _

/-- **C114, without rounding** a system with compensated types computes what one without them does, and the stored errors remain zero. -/
theorem C114_exact (stages : List Stage) (hs : List ℝ) : ∀ s : Simple,
    krun .exact stages hs (.init s.time s.P) = .init (run .exact stages hs s).time (run .exact stages hs s).P := by
  induction hs with
  | nil => exact fun s => rfl
  | cons h l ih =>
    intro s
    show krun .exact stages l (kstep .exact stages h (.init s.time s.P)) = _
    rw [kstep_exact]
    exact ih _

/-! ### one step -/

/-- the value that a sum and its stored error stand for -/
def hatN (a : Comp.Num) : ℝ := a.real - a.err

def hatV (a : V3 Comp.Num) : V3 ℝ := ⟨hatN a.x, hatN a.y, hatN a.z⟩

def KSimple.hat (s : KSimple) : Simple := .init (hatN s.time) ⟨s.num, fun k => hatV (s.pos k), fun k => hatV (s.vel k), s.mass⟩

def ErrV (b : ℝ) (a : V3 Comp.Num) : Prop := |a.x.err| ≤ b ∧ |a.y.err| ≤ b ∧ |a.z.err| ≤ b

/-- all stored errors are at most `b` -/
def ErrLe (n : Nat) (b : ℝ) (s : KSimple) : Prop := (∀ k, k < n → ErrV b (s.pos k) ∧ ErrV b (s.vel k)) ∧ |s.time.err| ≤ b

theorem kstep_keeps (A : Arith) (h : ℝ) (stages : List Stage) : ∀ s : KSimple, (kstep A stages h s).num = s.num ∧ (kstep A stages h s).mass = s.mass := by
  induction stages with
  | nil => exact fun s => ⟨rfl, rfl⟩
  | cons c l ih =>
    intro s
    obtain ⟨a, b⟩ := ih (kstage A h c s)
    have e : kstep A (c :: l) h s = kstep A l h (kstage A h c s) := rfl
    rw [e, a, b]
    cases c <;> exact ⟨rfl, rfl⟩

theorem start_tight {Z : Type} {E : ℝ} {V : ℝ → Z → Prop} {S : Set Z} {h : Z → ℝ} (f : Z → Comp.Num) (hf : ∀ u, ∀ z ∈ S, V u z → |(f z).err| ≤ E * u) :
    Tight E V S h (fun _ z => f z) (fun z => hatN (f z)) :=
  ⟨0, 1, le_rfl, one_pos, le_rfl, fun A u _ _ _ z hz hv => ⟨by simp [hatN], hf u z hz hv⟩⟩

theorem start_tightV {Z : Type} {E : ℝ} {V : ℝ → Z → Prop} {S : Set Z} {h : Z → ℝ} (f : Z → V3 Comp.Num) (hf : ∀ u, ∀ z ∈ S, V u z → ErrV (E * u) (f z)) :
    TightV E V S h (fun _ z => f z) (fun z => hatV (f z)) :=
  ⟨start_tight (fun z => (f z).x) fun u z hz hv => (hf u z hz hv).1, start_tight (fun z => (f z).y) fun u z hz hv => (hf u z hz hv).2.1,
    start_tight (fun z => (f z).z) fun u z hz hv => (hf u z hz hv).2.2⟩

/-- What rounding does to one step from a state near the motion. -/
theorem near_kstep {n : Nat} {m : Nat → ℝ} {y : ℝ → Conf n × Conf n} {T r ρ B : ℝ} (hρ : ρ ≤ 1) {stages : List Stage} {W : Set (Conf n × Conf n)} (hW : IsCompact W)
    (hWU : W ⊆ Prod.fst ⁻¹' free n)
    (inW : ∀ t ∈ Set.Icc 0 T, ∀ h ∈ Set.Icc 0 ρ, ∀ z, ‖z - y t‖ ≤ r → ∀ pre suf, stages = pre ++ suf → wstep (plainF n m) pre h z ∈ W) :
    ∃ C E u0 : ℝ, 0 ≤ C ∧ 0 ≤ E ∧ 0 < u0 ∧ u0 ≤ 1 ∧ ∀ A u, Accurate A u → 0 ≤ u → u ≤ u0 → ∀ h s, (h, s.hat) ∈ nearby n m y T r ρ B → ErrLe n (E * u) s →
      ‖point n (kstep A stages h s).hat - wstep (plainF n m) stages h (point n s.hat)‖ ≤ C * (u * h + u ^ 2) ∧
      |(kstep A stages h s).hat.time - (s.hat.time + sumDrift stages * h)| ≤ C * (u * h + u ^ 2) ∧ ErrLe n (E * u) (kstep A stages h s) := by
  set S : Set (ℝ × KSimple) := {z | (z.1, z.2.hat) ∈ nearby n m y T r ρ B} with hS
  obtain ⟨R0, hR0⟩ := hW.isBounded.exists_norm_le
  obtain ⟨c, hc⟩ : ∃ c : ℝ, ∀ pre suf, stages = pre ++ suf → |(sumDrift pre : ℝ)| ≤ c := by
    obtain ⟨c, hc⟩ := (List.finite_toSet stages.inits |>.image fun s => |((sumDrift s : ℚ) : ℝ)|).bddAbove
    exact ⟨c, fun pre suf e => hc ⟨pre, (List.mem_inits _ _).2 ⟨suf, e.symm⟩, rfl⟩⟩
  have hc0 : 0 ≤ c := (abs_nonneg _).trans (hc [] stages rfl)
  set R := |R0| + (|B| + c) with hR
  have hRn : 0 ≤ R := by positivity
  set E := 28 * R + 32 with hE
  have hE0 : 0 ≤ E := by positivity
  set V : ℝ → ℝ × KSimple → Prop := fun u z => ErrLe n (E * u) z.2 with hV
  have hh : ∀ z ∈ S, 0 ≤ z.1 ∧ z.1 ≤ 1 := fun z hz => ⟨hz.1.1, hz.1.2.trans hρ⟩
  have apart : ∀ pre suf, stages = pre ++ suf → Apart n S (fun z => (step .exact pre z.1 z.2.hat).P) := fun pre suf e i j hij hj => by
    obtain ⟨c, hc, k⟩ := nearby_apart (B := B) hW hWU inW pre suf e i j hij hj
    exact ⟨c, hc, fun z hz => k (z.1, z.2.hat) hz⟩
  have sized : ∀ pre suf, stages = pre ++ suf → ∀ z ∈ S, Sized n R (step .exact pre z.1 z.2.hat) := by
    rintro pre suf e z ⟨h1, h2, h3, h4, t, ht, h5⟩
    have bd := hR0 _ (inW t ht z.1 h1 _ h5 pre suf e)
    rw [← step_point z.1 pre z.2.hat h2 h3] at bd
    have bd' : ‖point n (step .exact pre z.1 z.2.hat)‖ ≤ R := bd.trans ((le_abs_self _).trans (by rw [hR]; linarith [abs_nonneg B]))
    refine ⟨fun k hk => ⟨coord_le _ k hk ((norm_fst_le _).trans bd'), coord_le _ k hk ((norm_snd_le _).trans bd')⟩, ?_⟩
    rw [(step_keeps .exact z.1 pre z.2.hat).2.2]
    have t1 := abs_add_le z.2.hat.time ((sumDrift pre : ℝ) * z.1)
    rw [abs_mul, abs_of_nonneg h1.1] at t1
    have t2 : |(sumDrift pre : ℝ)| * z.1 ≤ c * 1 := mul_le_mul (hc pre suf e) (h1.2.trans hρ) h1.1 hc0
    have t3 : |z.2.hat.time| ≤ |B| := (show _ ≤ B from h4).trans (le_abs_self _)
    linarith [abs_nonneg R0]
  have start : TightS n E V S (fun z => z.1) (fun _ z => z.2) (fun z => z.2.hat) :=
    { num := fun _ z hz => hz.2.1
      num0 := fun z hz => hz.2.1
      mass := fun k hk => .fixed (fun z : ℝ × KSimple => z.2.mass k) (B := |m k|) fun z hz => by
        have : z.2.mass k = m k := hz.2.2.1 k hk
        rw [this]
      pos := fun k hk => start_tightV (fun z : ℝ × KSimple => z.2.pos k) fun u z hz hv => (hv.1 k hk).1
      vel := fun k hk => start_tightV (fun z : ℝ × KSimple => z.2.vel k) fun u z hz hv => (hv.1 k hk).2
      time := start_tight (fun z : ℝ × KSimple => z.2.time) fun u z hz hv => hv.2 }
  have fin := TightS.step hh hRn le_rfl stages (fun _ z => z.2) (fun z => z.2.hat) start fun pre suf e => ⟨apart pre suf e, sized pre suf e⟩
  obtain ⟨C1, u1, hC1, p1, k1⟩ := tight_uniform (fun z hz => (hh z hz).1) n fin.pos
  obtain ⟨C2, u2, hC2, p2, k2⟩ := tight_uniform (fun z hz => (hh z hz).1) n fin.vel
  obtain ⟨C3, u3, hC3, p3, q3, k3⟩ := fin.time
  refine ⟨C1 + (C2 + C3), E, min u1 (min u2 u3), by positivity, hE0, lt_min p1 (lt_min p2 p3), (min_le_right _ _).trans ((min_le_right _ _).trans q3), fun A u hA hu hle h s hz hv => ?_⟩
  have hz' : (h, s) ∈ S := hz
  have h0 := (hh _ hz').1
  have l1 := hle.trans (min_le_left _ _)
  have l2 := (hle.trans (min_le_right _ _)).trans (min_le_left _ _)
  have l3 := (hle.trans (min_le_right _ _)).trans (min_le_right _ _)
  have f1 := fun k hk => (k1 A u hA hu l1 (h, s) hz' hv k hk).mono (C' := C1 + (C2 + C3)) (by linarith) hu h0
  have f2 := fun k hk => (k2 A u hA hu l2 (h, s) hz' hv k hk).mono (C' := C1 + (C2 + C3)) (by linarith) hu h0
  have f3 := Fits.mono (C' := C1 + (C2 + C3)) (k3 A u hA hu l3 (h, s) hz' hv) (by linarith) hu h0
  refine ⟨?_, ?_, fun k hk => ⟨⟨(f1 k hk).1.2, (f1 k hk).2.1.2, (f1 k hk).2.2.2⟩, ⟨(f2 k hk).1.2, (f2 k hk).2.1.2, (f2 k hk).2.2.2⟩⟩, f3.2⟩
  · rw [← step_point h stages s.hat hz.2.1 hz.2.2.1]
    exact norm_prod_le_iff.2 ⟨le_coord _ _ (by positivity) fun k hk => ⟨(f1 k hk).1.1, (f1 k hk).2.1.1, (f1 k hk).2.2.1⟩,
      le_coord _ _ (by positivity) fun k hk => ⟨(f2 k hk).1.1, (f2 k hk).2.1.1, (f2 k hk).2.2.1⟩⟩
  · rw [← (step_keeps A h stages s.hat).2.2]
    exact f3.1

/-! ### the property -/

/-- **C114.** As C113 with compensated types: every position and velocity is off by at most `K (hm ^ p + δ + e + u + N u²)`, and the clock by at most
`K (u + N u²)`: the rounding errors of the steps do not add up, except for the squares of the unit. -/
theorem C114_compensated {n : Nat} {m : Nat → ℝ} {x v : ℝ → Nat → V3 ℝ} {t0 t1 : ℝ} (ht : t0 ≤ t1) (M : NewtonMotion n m x v t0 t1) (p : Nat) (hp : 1 ≤ p)
    (stages : List Stage) :
    ∃ K ρ : ℝ, 0 ≤ K ∧ 0 < ρ ∧ ∀ A u, Accurate A u → 0 ≤ u → u ≤ ρ → ∀ e P, 0 ≤ e → e ≤ ρ → WithinOf n m x v t0 e P →
      ∀ hm δ, 0 ≤ hm → hm ≤ ρ → 0 ≤ δ → δ ≤ ρ →
      (∀ w : List Bool, 1 ≤ w.length → w.length ≤ p → |(deviation stages w : ℝ)| * hm ^ (w.length - 1) ≤ δ) →
      ∀ hs : List ℝ, (∀ h ∈ hs, 0 ≤ h ∧ h ≤ hm) → t0 + hs.sum ≤ t1 → hs.length * u ^ 2 ≤ ρ →
        |(krun A stages hs (.init t0 P)).time.real - (t0 + sumDrift stages * hs.sum)| ≤ K * (u + hs.length * u ^ 2) ∧
        WithinOf n m x v (t0 + hs.sum) (K * (hm ^ p + δ + e + u + hs.length * u ^ 2)) (krun A stages hs (.init t0 P)).shown := by
  obtain ⟨_, _, _, _, _, H, _, _⟩ := motion_tube M
  have mem : ∀ t ∈ Set.Icc 0 (t1 - t0), t0 + t ∈ Set.Icc t0 t1 := fun t ht => ⟨by linarith [ht.1], by linarith [ht.2]⟩
  have hfree : ∀ t ∈ Set.Icc 0 (t1 - t0), conf n (x (t0 + t)) ∈ free n := by
    intro t ht i j hij h
    exact M.apart _ (mem t ht) i j i.2 j.2 (fun e => hij (Fin.ext e)) (congrArg ve h)
  have hc : ∃ c : ℝ, ∀ s ∈ stages, |((coef s : ℚ) : ℝ)| ≤ c := by
    obtain ⟨c, hc⟩ := (List.finite_toSet stages |>.image fun s => |((coef s : ℚ) : ℝ)|).bddAbove
    exact ⟨c, fun s hs => hc ⟨s, hs, rfl⟩⟩
  obtain ⟨c, hc⟩ := hc
  set y : ℝ → Conf n × Conf n := fun t => (conf n (x (t0 + t)), conf n (v (t0 + t))) with hy
  set T := t1 - t0 with hT
  have hT0 : 0 ≤ T := by linarith
  obtain ⟨r, C, L, ρ1, W, hr, hC, hL, hρ1, hρ11, cW, hWU, key⟩ := order_parts ((free_open n).preimage continuous_fst) (plain_smooth n m) (plain_straight n m)
    (T := T) (y := y) (fun t ht => by
      have := (H.dq t ht).prodMk (H.dv t ht)
      refine this.congr_deriv ?_
      simp [plainF, hy]) hfree p stages.length c
  obtain ⟨stab, inW, loc⟩ := key stages le_rfl hc
  set σ : ℝ := (sumDrift stages : ℝ) with hσ
  obtain ⟨D, E, u0, hD, hE, hu0, hu01, rnd⟩ := near_kstep (B := |t0| + |σ| * T + 1) hρ11 cW hWU inW
  set X := Real.exp (L * T) with hX
  have hX0 : 0 < X := Real.exp_pos _
  set Q := X * (1 + 2 * (T * C) + T * D + D) with hQ
  have hQ0 : 0 ≤ Q := by positivity
  set G := D * (T + 1) with hG
  have hG0 : 0 ≤ G := by positivity
  refine ⟨2 * (X * (1 + T * C + T * D + D) + E) + (G + E), min (min ρ1 u0) (min (r / (Q + 1)) (1 / (G + 1))), by positivity,
    lt_min (lt_min hρ1 hu0) (lt_min (by positivity) (by positivity)), fun A u hA hu huρ e P he heρ S hm δ hm0 hmρ hδ0 hδρ hdev hs hhs hsum hN => ?_⟩
  have q1 : min (min ρ1 u0) (min (r / (Q + 1)) (1 / (G + 1))) ≤ ρ1 := (min_le_left _ _).trans (min_le_left _ _)
  have q2 : min (min ρ1 u0) (min (r / (Q + 1)) (1 / (G + 1))) ≤ u0 := (min_le_left _ _).trans (min_le_right _ _)
  have q3 : min (min ρ1 u0) (min (r / (Q + 1)) (1 / (G + 1))) ≤ r / (Q + 1) := (min_le_right _ _).trans (min_le_left _ _)
  have q4 : min (min ρ1 u0) (min (r / (Q + 1)) (1 / (G + 1))) ≤ 1 / (G + 1) := (min_le_right _ _).trans (min_le_right _ _)
  have hm1 : hm ≤ 1 := hmρ.trans (q1.trans hρ11)
  have hmp : hm ^ p ≤ hm := pow_le_of_le_one hm0 hm1 (by omega)
  have hmp0 : 0 ≤ hm ^ p := by positivity
  set Nu := hs.length * u ^ 2 with hNu'
  have hNu : 0 ≤ Nu := by positivity
  have clk : D * (u * T + Nu) ≤ 1 := by
    have h1 := hN.trans q4
    have h2 := huρ.trans q4
    have h3 : D * (u * T + Nu) ≤ G * (1 / (G + 1)) := by
      calc D * (u * T + Nu) ≤ D * (1 / (G + 1) * T + 1 / (G + 1)) := by gcongr
        _ = G * (1 / (G + 1)) := by rw [hG]; ring
    refine h3.trans ?_
    rw [mul_one_div, div_le_one (by positivity)]
    linarith
  have small : X * (e + T * (C * (hm ^ p + δ) + D * u) + hs.length * (D * u ^ 2)) ≤ r := by
    have a1 : e ≤ r / (Q + 1) := heρ.trans q3
    have a2 : hm ^ p ≤ r / (Q + 1) := hmp.trans (hmρ.trans q3)
    have a3 : δ ≤ r / (Q + 1) := hδρ.trans q3
    have a4 : Nu ≤ r / (Q + 1) := hN.trans q3
    have a6 : u ≤ r / (Q + 1) := huρ.trans q3
    have a5 : Q * (r / (Q + 1)) ≤ r := by
      rw [mul_div_assoc', div_le_iff₀ (by positivity)]
      linarith [show r * (Q + 1) = Q * r + r by ring]
    calc X * (e + T * (C * (hm ^ p + δ) + D * u) + hs.length * (D * u ^ 2)) = X * (e + T * C * (hm ^ p + δ) + T * D * u + D * Nu) := by rw [hNu']; ring
      _ ≤ X * (r / (Q + 1) + T * C * (r / (Q + 1) + r / (Q + 1)) + T * D * (r / (Q + 1)) + D * (r / (Q + 1))) := by gcongr
      _ = Q * (r / (Q + 1)) := by rw [hQ]; ring
      _ ≤ r := a5
  have z0 : |(0 : ℝ)| ≤ E * u := by rw [abs_zero]; positivity
  have g := global_perturbed (Φ := wstep (plainF n m) stages) (Ψ := fun h s => kstep A stages h s) (ζ := fun s => point n s.hat)
    (I := fun t k s => s.num = n ∧ (∀ k, k < n → s.mass k = m k) ∧ |s.hat.time - (t0 + σ * t)| ≤ D * (u * t + k * u ^ 2) ∧ ErrLe n (E * u) s) (y := y) (T := T)
    (r := r) (M := L) (hm := hm) (ε := C * (hm ^ p + δ) + D * u) (ε1 := C * (hm ^ p + δ)) (κ := D * u) (η := D * u ^ 2) (e := e) (N := hs.length) hL
    (by positivity) le_rfl (by positivity) he
    (fun t ht h hh => stab t ht h ⟨hh.1, hh.2.trans (hmρ.trans q1)⟩) (loc hm δ hm0 (hmρ.trans q1) hδ0 hdev)
    (fun t h k s ht0 h0 hh htT hk ⟨i1, i2, i3, i4⟩ hz => by
      have hkN : (k : ℝ) ≤ hs.length := by exact_mod_cast (by omega : k ≤ hs.length)
      have ht' : t ∈ Set.Icc 0 T := ⟨ht0, by linarith⟩
      have bd : |s.hat.time| ≤ |t0| + |σ| * T + 1 := by
        have b1 : |s.hat.time| ≤ |s.hat.time - (t0 + σ * t)| + (|t0| + |σ * t|) := by
          have := abs_add_le (s.hat.time - (t0 + σ * t)) (t0 + σ * t)
          rw [sub_add_cancel] at this
          exact this.trans (add_le_add_right (abs_add_le _ _) _)
        have b2 : |σ * t| ≤ |σ| * T := by
          rw [abs_mul, abs_of_nonneg ht0]
          exact mul_le_mul_of_nonneg_left ht'.2 (abs_nonneg _)
        have b3 : D * (u * t + k * u ^ 2) ≤ D * (u * T + Nu) := mul_le_mul_of_nonneg_left
          (add_le_add (mul_le_mul_of_nonneg_left ht'.2 hu) (mul_le_mul_of_nonneg_right hkN (by positivity))) hD
        linarith
      obtain ⟨j1, j2, j3⟩ := rnd A u hA hu (huρ.trans q2) h s ⟨⟨h0, hh.trans (hmρ.trans q1)⟩, i1, i2, bd, t, ht', hz⟩ i4
      obtain ⟨k1, k2⟩ := kstep_keeps A h stages s
      refine ⟨⟨k1.trans i1, fun k hk => by rw [k2]; exact i2 k hk, ?_, j3⟩, j1.trans (le_of_eq (by ring))⟩
      have b4 := abs_add_le ((kstep A stages h s).hat.time - (s.hat.time + σ * h)) (s.hat.time - (t0 + σ * t))
      rw [show (kstep A stages h s).hat.time - (s.hat.time + σ * h) + (s.hat.time - (t0 + σ * t)) = (kstep A stages h s).hat.time - (t0 + σ * (t + h)) by ring] at b4
      have b6 : D * (u * (t + h) + (k + 1 : ℕ) * u ^ 2) = D * (u * h + u ^ 2) + D * (u * t + k * u ^ 2) := by push_cast; ring
      rw [b6]
      linarith)
    small hs 0 0 (.init t0 P) hhs le_rfl (by linarith) (by omega) ⟨S.num, S.mass, by simp [KSimple.hat, KSimple.init, hatN, Comp.Num.of, Simple.init],
      ⟨fun _ _ => ⟨⟨z0, z0, z0⟩, ⟨z0, z0, z0⟩⟩, z0⟩⟩ (by
      have h1 : ‖point n (KSimple.init t0 P).hat - y 0‖ ≤ e := by
        have hp : point n (KSimple.init t0 P).hat = (conf n P.pos, conf n P.vel) := by
          simp [point, KSimple.hat, KSimple.init, hatV, hatN, Comp.Num.of, Simple.init]
        rw [hp]
        show ‖(conf n P.pos - conf n (x (t0 + 0)), conf n P.vel - conf n (v (t0 + 0)))‖ ≤ e
        rw [add_zero]
        have f : ∀ a b : Nat → V3 ℝ, (∀ k, k < n → len (a k - b k) ≤ e) → ‖conf n a - conf n b‖ ≤ e := fun a b hab =>
          le_coord a b he fun k hk => ⟨((norm_le_len (a k - b k)).1).trans (hab k hk), ((norm_le_len (a k - b k)).2.1).trans (hab k hk),
            ((norm_le_len (a k - b k)).2.2).trans (hab k hk)⟩
        exact norm_prod_le_iff.2 ⟨f _ _ S.pos, f _ _ S.vel⟩
      simpa using h1)
  rw [zero_add, zero_add] at g
  obtain ⟨⟨g1, g2, g3, g5⟩, g4⟩ := g
  change (krun A stages hs (.init t0 P)).num = n at g1
  change ∀ k, k < n → (krun A stages hs (.init t0 P)).mass k = m k at g2
  change |(krun A stages hs (.init t0 P)).hat.time - (t0 + σ * hs.sum)| ≤ D * (u * hs.sum + Nu) at g3
  change ErrLe n (E * u) (krun A stages hs (.init t0 P)) at g5
  change ‖point n (krun A stages hs (.init t0 P)).hat - y hs.sum‖ ≤ _ at g4
  set k := krun A stages hs (.init t0 P) with hk
  have hs0 : 0 ≤ hs.sum := List.sum_nonneg fun h hh => (hhs h hh).1
  have hsT : hs.sum ≤ T := by linarith
  constructor
  · have a1 := abs_add_le (k.hat.time - (t0 + σ * hs.sum)) k.time.err
    rw [show k.hat.time - (t0 + σ * hs.sum) + k.time.err = k.time.real - (t0 + σ * hs.sum) by simp [KSimple.hat, hatN, Simple.init]; ring] at a1
    have a2 : D * (u * hs.sum + Nu) ≤ D * (u * T + Nu) := mul_le_mul_of_nonneg_left (by linarith [mul_le_mul_of_nonneg_left hsT hu]) hD
    have a3 := g5.2
    have a4 : 0 ≤ 2 * (X * (1 + T * C + T * D + D) + E) * (u + Nu) := by positivity
    have a5 : 0 ≤ D * T * Nu := by positivity
    have a6 : 0 ≤ D * u := by positivity
    have a7 : 0 ≤ E * Nu := by positivity
    linarith only [a1, a2, a3, a4, a5, a6, a7, g3, show (2 * (X * (1 + T * C + T * D + D) + E) + (G + E)) * (u + Nu) =
      2 * (X * (1 + T * C + T * D + D) + E) * (u + Nu) + (D * (u * T + Nu) + D * T * Nu + D * u) + E * u + E * Nu by rw [hG]; ring]
  · have near : ‖(conf n k.shown.pos, conf n k.shown.vel) - point n k.hat‖ ≤ E * u := by
      have f : ∀ a : Nat → V3 Comp.Num, (∀ k, k < n → ErrV (E * u) (a k)) → ‖conf n (fun k => realV (a k)) - conf n (fun k => hatV (a k))‖ ≤ E * u := fun a ha =>
        le_coord _ _ (by positivity) fun k hk => by simpa [realV, hatV, hatN, ErrV] using ha k hk
      exact norm_prod_le_iff.2 ⟨f _ fun k hk => (g5.1 k hk).1, f _ fun k hk => (g5.1 k hk).2⟩
    have tot := (norm_sub_le_norm_sub_add_norm_sub _ _ (y hs.sum)).trans (add_le_add near g4)
    have W := within_of (x := x) (v := v) (t := t0 + hs.sum) (P := k.shown) g1 g2 tot
    set Y := hm ^ p + δ + e + u + Nu with hY
    have hY0 : 0 ≤ Y := by positivity
    have le : 2 * (E * u + Real.exp (L * hs.sum) * (e + hs.sum * (C * (hm ^ p + δ) + D * u) + hs.length * (D * u ^ 2))) ≤
        (2 * (X * (1 + T * C + T * D + D) + E) + (G + E)) * Y := by
      have e1 : Real.exp (L * hs.sum) ≤ X := Real.exp_le_exp.2 (mul_le_mul_of_nonneg_left hsT hL)
      have e2 : e + hs.sum * (C * (hm ^ p + δ) + D * u) + hs.length * (D * u ^ 2) ≤ (1 + T * C + T * D + D) * Y := by
        have p1 : hs.sum * (C * (hm ^ p + δ) + D * u) ≤ T * (C * (hm ^ p + δ) + D * u) := mul_le_mul_of_nonneg_right hsT (by positivity)
        have p2 : 0 ≤ 1 * (hm ^ p + δ + u + Nu) := by positivity
        have p3 : 0 ≤ T * C * (e + u + Nu) := by positivity
        have p4 : 0 ≤ D * (hm ^ p + δ + e + u) := by positivity
        have p5 : 0 ≤ T * D * (hm ^ p + δ + e + Nu) := by positivity
        linarith [show (1 + T * C + T * D + D) * Y = e + T * (C * (hm ^ p + δ) + D * u) + hs.length * (D * u ^ 2) + 1 * (hm ^ p + δ + u + Nu) +
          T * C * (e + u + Nu) + D * (hm ^ p + δ + e + u) + T * D * (hm ^ p + δ + e + Nu) by rw [hY, hNu']; ring]
      have e3 : Real.exp (L * hs.sum) * (e + hs.sum * (C * (hm ^ p + δ) + D * u) + hs.length * (D * u ^ 2)) ≤ X * ((1 + T * C + T * D + D) * Y) :=
        mul_le_mul e1 e2 (by positivity) hX0.le
      have e4 : 0 ≤ (G + E) * Y := by positivity
      have e5 : E * u ≤ E * Y := mul_le_mul_of_nonneg_left (by rw [hY]; linarith) hE
      linarith [show (2 * (X * (1 + T * C + T * D + D) + E) + (G + E)) * Y = 2 * (X * ((1 + T * C + T * D + D) * Y)) + 2 * (E * Y) + (G + E) * Y by ring]
    exact ⟨W.num, W.mass, fun k hk => (W.pos k hk).trans le, fun k hk => (W.vel k hk).trans le⟩

/-- **C114, the integrators of the library** with compensated types in rounded arithmetic with `b` bits: off by at most
`K (hm ^ q + 1e-12 + 1 / 2 ^ b + N / 4 ^ b)`, `q` the order of the
integrator (for `Symplectic10th` it is 4, see C54), if `1e-12` and `N / 4 ^ b` are small for the motion. -/
theorem C114_integrators {n : Nat} {m : Nat → ℝ} {x v : ℝ → Nat → V3 ℝ} {t0 t1 : ℝ} (ht : t0 ≤ t1) (M : NewtonMotion n m x v t0 t1) :
    ∃ K ρ : ℝ, 0 ≤ K ∧ 0 < ρ ∧ ((1e-12 : ℝ) ≤ ρ → ∀ q ∈ nominal, ∀ (b : Nat) (rnd : ℝ → ℝ), 1 ≤ b → Nearest b rnd → (1 : ℝ) / 2 ^ b ≤ ρ → ∀ P, InState n m x v t0 P →
      ∀ hm, 0 ≤ hm → hm ≤ ρ → ∀ hs : List ℝ, (∀ h ∈ hs, 0 ≤ h ∧ h ≤ hm) → t0 + hs.sum ≤ t1 → hs.length * (1 / 2 ^ b : ℝ) ^ 2 ≤ ρ →
        WithinOf n m x v (t0 + hs.sum) (K * (hm ^ q.2 + 1e-12 + 1 / 2 ^ b + hs.length * (1 / 2 ^ b) ^ 2)) (krun (ieee rnd) q.1 hs (.init t0 P)).shown) := by
  have ex : ∀ q : List Stage × Nat, ∃ K ρ : ℝ, 0 ≤ K ∧ 0 < ρ ∧ (q ∈ nominal → (1e-12 : ℝ) ≤ ρ → ∀ (b : Nat) (rnd : ℝ → ℝ), 1 ≤ b → Nearest b rnd → (1 : ℝ) / 2 ^ b ≤ ρ →
      ∀ P, InState n m x v t0 P →
      ∀ hm, 0 ≤ hm → hm ≤ ρ → ∀ hs : List ℝ, (∀ h ∈ hs, 0 ≤ h ∧ h ≤ hm) → t0 + hs.sum ≤ t1 → hs.length * (1 / 2 ^ b : ℝ) ^ 2 ≤ ρ →
        WithinOf n m x v (t0 + hs.sum) (K * (hm ^ q.2 + 1e-12 + 1 / 2 ^ b + hs.length * (1 / 2 ^ b) ^ 2)) (krun (ieee rnd) q.1 hs (.init t0 P)).shown) := by
    intro q
    by_cases hq : q ∈ nominal
    · have q1 : 1 ≤ q.2 := by
        simp only [nominal, List.mem_cons, List.not_mem_nil, or_false] at hq
        rcases hq with rfl | rfl | rfl | rfl | rfl | rfl <;> norm_num
      obtain ⟨K, ρ, hK, hρ, H⟩ := C114_compensated ht M q.2 q1 q.1
      refine ⟨K, min ρ 1, hK, lt_min hρ one_pos, fun _ h12 b rnd hb N hbρ P S hm hm0 hmρ hs hhs hsum hN => ?_⟩
      have l := min_le_left ρ 1
      have hm1 : hm ≤ 1 := hmρ.trans (min_le_right _ _)
      have W0 : WithinOf n m x v t0 0 P := ⟨S.num, S.mass, fun k hk => by rw [S.pos k hk]; simp [len, dot], fun k hk => by rw [S.vel k hk]; simp [len, dot]⟩
      have R := (H (ieee rnd) _ (C113_nearest hb N) (by positivity) (hbρ.trans l) 0 P le_rfl hρ.le W0 hm 1e-12 hm0 (hmρ.trans l) (by norm_num) (h12.trans l)
        (fun w _ hw => by
          have h1 := (C93_conditions.1 q hq).2.2 w hw
          have h2 : |(deviation q.1 w : ℝ)| ≤ 1e-12 := by
            have : ((|deviation q.1 w| : ℚ) : ℝ) ≤ ((1e-12 : ℚ) : ℝ) := by exact_mod_cast h1
            rw [Rat.cast_abs] at this
            exact this.trans (by norm_num)
          have h3 : hm ^ (w.length - 1) ≤ 1 := pow_le_one₀ hm0 hm1
          calc |(deviation q.1 w : ℝ)| * hm ^ (w.length - 1) ≤ 1e-12 * 1 := mul_le_mul h2 h3 (by positivity) (by norm_num)
            _ = 1e-12 := mul_one _) hs hhs hsum (hN.trans l)).2
      rwa [add_zero] at R
    · exact ⟨0, 1, le_rfl, one_pos, fun h => absurd h hq⟩
  choose K ρ hK hρ H using ex
  have hl : ∀ l : List (List Stage × Nat), ∃ K' ρ' : ℝ, 0 ≤ K' ∧ 0 < ρ' ∧ ∀ q ∈ l, K q ≤ K' ∧ ρ' ≤ ρ q := by
    intro l
    induction l with
    | nil => exact ⟨0, 1, le_rfl, one_pos, by simp⟩
    | cons q l ih =>
      obtain ⟨K', ρ', h1, h2, h3⟩ := ih
      refine ⟨max K' (K q), min ρ' (ρ q), h1.trans (le_max_left _ _), lt_min h2 (hρ q), fun q' hq' => ?_⟩
      rcases List.mem_cons.1 hq' with rfl | hq'
      · exact ⟨le_max_right _ _, min_le_right _ _⟩
      · exact ⟨(h3 q' hq').1.trans (le_max_left _ _), (min_le_left _ _).trans (h3 q' hq').2⟩
  obtain ⟨K', ρ', h1, h2, h3⟩ := hl nominal
  refine ⟨K', ρ', h1, h2, fun h12 q hq b rnd hb N hbρ P S hm hm0 hmρ hs hhs hsum hN => ?_⟩
  obtain ⟨w1, w2⟩ := h3 q hq
  have W := H q hq (h12.trans w2) b rnd hb N (hbρ.trans w2) P S hm hm0 (hmρ.trans w2) hs hhs hsum (hN.trans w2)
  have le : K q * (hm ^ q.2 + 1e-12 + 1 / 2 ^ b + hs.length * (1 / 2 ^ b) ^ 2) ≤ K' * (hm ^ q.2 + 1e-12 + 1 / 2 ^ b + hs.length * (1 / 2 ^ b) ^ 2) := mul_le_mul_of_nonneg_right w1 (by positivity)
  exact ⟨W.num, W.mass, fun k hk => (W.pos k hk).trans le, fun k hk => (W.vel k hk).trans le⟩

/-- **C114, the leap-frogs** with compensated types and a constant step `h` in rounded arithmetic with `b` bits: off by at most `K (h² + 1 / 2 ^ b)` as long
as `h` is not below `1 / 2 ^ b`: shorter steps help until the error is that of a single operation (without compensation, until `h` is the cube root, C113). -/
theorem C114_leapfrogs {n : Nat} {m : Nat → ℝ} {x v : ℝ → Nat → V3 ℝ} {t0 t1 : ℝ} (ht : t0 ≤ t1) (M : NewtonMotion n m x v t0 t1) (stages : List Stage)
    (hst : stages = symplectic2nd ∨ stages = leapFrogKDK) :
    ∃ K ρ : ℝ, 0 ≤ K ∧ 0 < ρ ∧ ∀ (b : Nat) (rnd : ℝ → ℝ), 1 ≤ b → Nearest b rnd → (1 : ℝ) / 2 ^ b ≤ ρ → ∀ P, InState n m x v t0 P →
      ∀ h, 0 < h → h ≤ ρ → (1 : ℝ) / 2 ^ b ≤ h → ∀ N : Nat, t0 + N * h ≤ t1 →
        |(krun (ieee rnd) stages (List.replicate N h) (.init t0 P)).time.real - (t0 + N * h)| ≤ K * (1 / 2 ^ b) ∧
        WithinOf n m x v (t0 + N * h) (K * (h ^ 2 + 1 / 2 ^ b)) (krun (ieee rnd) stages (List.replicate N h) (.init t0 P)).shown := by
  obtain ⟨K, ρ, hK, hρ, H⟩ := C114_compensated ht M 2 (by norm_num) stages
  have hT : 0 < t1 - t0 + 1 := by linarith
  have hq : 0 < ρ / (t1 - t0 + 1) := by positivity
  refine ⟨K * (t1 - t0 + 1), min ρ (ρ / (t1 - t0 + 1)), by positivity, lt_min hρ hq, fun b rnd hb N hbρ P S h h0 hρh hbh k hk => ?_⟩
  have W0 : WithinOf n m x v t0 0 P := ⟨S.num, S.mass, fun k hk => by rw [S.pos k hk]; simp [len, dot], fun k hk => by rw [S.vel k hk]; simp [len, dot]⟩
  set u : ℝ := 1 / 2 ^ b with hu
  have u0 : 0 ≤ u := by positivity
  have hkh : (k : ℝ) * h ≤ t1 - t0 := by linarith
  have ku : k * u ^ 2 ≤ (t1 - t0) * u := by
    have a1 : (k : ℝ) * u ≤ k * h := mul_le_mul_of_nonneg_left hbh (Nat.cast_nonneg k)
    have a2 := mul_le_mul_of_nonneg_right (a1.trans hkh) u0
    linarith [show (k : ℝ) * u ^ 2 = k * u * u by ring]
  have kρ : k * u ^ 2 ≤ ρ := by
    have uh : u ≤ ρ / (t1 - t0 + 1) := hbρ.trans (min_le_right _ _)
    rw [le_div_iff₀ hT] at uh
    linarith [show u * (t1 - t0 + 1) = (t1 - t0) * u + u by ring]
  have ds : ((sumDrift stages : ℚ) : ℝ) = 1 := by rcases hst with rfl | rfl <;> norm_num [sumDrift, symplectic2nd, leapFrogKDK]
  obtain ⟨Rt, R⟩ := H (ieee rnd) u (C113_nearest hb N) u0 (hbρ.trans (min_le_left _ _)) 0 P le_rfl hρ.le W0 h 0 h0.le (hρh.trans (min_le_left _ _)) le_rfl hρ.le (fun w _ hw => by
      rw [C93_conditions.2.1 stages (by rcases hst with rfl | rfl <;> simp) w hw]
      simp) (List.replicate k h) (fun h' hh' => by rw [(List.mem_replicate.1 hh').2]; exact ⟨h0.le, le_rfl⟩)
      (by rw [List.sum_replicate, nsmul_eq_mul]; exact hk) (by rw [List.length_replicate]; exact kρ)
  rw [List.sum_replicate, nsmul_eq_mul, List.length_replicate, ds, one_mul] at Rt
  rw [List.sum_replicate, nsmul_eq_mul, List.length_replicate, add_zero, add_zero] at R
  have le : K * (h ^ 2 + u + k * u ^ 2) ≤ K * (t1 - t0 + 1) * (h ^ 2 + u) := by
    rw [mul_assoc]
    refine mul_le_mul_of_nonneg_left ?_ hK
    have p1 : 0 ≤ (t1 - t0) * h ^ 2 := mul_nonneg (by linarith) (by positivity)
    linarith [show (t1 - t0 + 1) * (h ^ 2 + u) = h ^ 2 + (t1 - t0) * h ^ 2 + (t1 - t0) * u + u by ring]
  have le' : K * (u + k * u ^ 2) ≤ K * (t1 - t0 + 1) * u := by
    rw [mul_assoc]
    refine mul_le_mul_of_nonneg_left ?_ hK
    linarith [show (t1 - t0 + 1) * u = (t1 - t0) * u + u by ring]
  exact ⟨Rt.trans le', R.num, R.mass, fun k hk => (R.pos k hk).trans le, fun k hk => (R.vel k hk).trans le⟩

/-- Non-vacuity: the hypotheses on the motion and the start hold of a circular motion, those on rounding of `roundTo 53`, and those on the steps of `10 ^ 6` steps
of the fourth-order integrator, for any `ρ ≥ 1e-6`. -/
example (t0 : ℝ) (ρ : ℝ) (hρ : 1e-6 ≤ ρ) : NewtonMotion 2 (fun _ => 1 / 2) circlePos circleVel t0 (t0 + 1) ∧
    WithinOf 2 (fun _ => 1 / 2) circlePos circleVel t0 0 ⟨2, circlePos t0, circleVel t0, fun _ => 1 / 2⟩ ∧
    Nearest 53 (roundTo 53) ∧ Accurate (ieee (roundTo 53)) (1 / 2 ^ 53) ∧ (1 : ℝ) / 2 ^ 53 ≤ ρ ∧
    (∀ h ∈ List.replicate 1000000 (1e-6 : ℝ), 0 ≤ h ∧ h ≤ 1e-6) ∧ t0 + (List.replicate 1000000 (1e-6 : ℝ)).sum ≤ t0 + 1 ∧
    (List.replicate 1000000 (1e-6 : ℝ)).length * (1 / 2 ^ 53 : ℝ) ^ 2 ≤ ρ ∧
    ∀ w : List Bool, 1 ≤ w.length → w.length ≤ 4 → |(deviation symplectic4th w : ℝ)| * 1e-6 ^ (w.length - 1) ≤ 1e-14 * 1e-6 ^ 2 := by
  have N : Nearest 53 (roundTo 53) := roundTo_nearest (by norm_num)
  refine ⟨circle_motion t0 _, ⟨rfl, fun _ _ => rfl, fun _ _ => by simp [len, dot], fun _ _ => by simp [len, dot]⟩, N, C113_nearest (by norm_num) N,
    le_trans (by norm_num) hρ, fun h hh => ?_, ?_, ?_, fourth_dev (by norm_num) (by norm_num)⟩
  · rw [(List.mem_replicate.1 hh).2]; norm_num
  · rw [List.sum_replicate, nsmul_eq_mul]; norm_num
  · rw [List.length_replicate]; exact le_trans (by norm_num) hρ

end SpaceHub.Rounded
