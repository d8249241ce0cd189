import Verif.Proof.BSTame
import Verif.Proof.ConvergeMove
import Verif.Props.ConvergeBS
import Verif.Spec.Region

/-
C96: small Bulirsch-Stoer steps are accepted, and the steps do not collapse.
-/

set_option autoImplicit false

namespace SpaceHub.BS
open SpaceHub Ctl Ctl.Fl

/-- The error estimators of the library that Bulirsch-Stoer is used with. -/
inductive Estimator
  | rms
  | worstOffender

/-- its error, with the given tolerances, for `n` variables -/
noncomputable def Estimator.error : Estimator → Fl → Fl → Nat → Arr Fl → Arr Fl → Arr Fl → Fl
  | .rms => Ctl.rms
  | .worstOffender => Ctl.worstOffender

/-- The iterator's estimator is `est` with tolerances `atol` and `rtol`; its controller is the PID controller after the calls `l` of its setters. -/
structure Library (p : Params ℝ) (est : Estimator) (atol rtol : ℝ) (l : List Setter) : Prop where
  err : ∀ (y : List ℝ) (a b : Arr ℝ), 1 ≤ y.length → est.error (fin atol) (fin rtol) y.length (nums fun i => y.getD i 0) (nums a) (nums b) = fin (p.err y a b)
  next : ∀ o e, o < 50 → 0 ≤ e → (configured l).next o e = .ok (p.next o e)
  limiter : ∀ o r, o < 50 → (configured l).limiter o r = .ok (p.limiter o r)

theorem estimator_small (est : Estimator) {atol rtol : ℝ} (ha : 0 < atol) (hr : 0 ≤ rtol) (n : Nat) (hn : 1 ≤ n) (y0 y1 y1p : Nat → ℝ) :
    ∃ x, 0 ≤ x ∧ est.error (fin atol) (fin rtol) n (nums y0) (nums y1) (nums y1p) = fin x ∧
      ∀ q, 0 ≤ q → (∀ i, i < n → |y1p i - y1 i| ≤ q * atol) → x ≤ q := by
  cases est with
  | rms => exact rms_value ha hr n hn y0 y1 y1p
  | worstOffender =>
    obtain ⟨x, hx, e⟩ := worst_value ha hr n y0 y1 y1p
    exact ⟨x, hx, e, fun q hq h => worst_small ha hr n y0 y1 y1p hq h e⟩

theorem library_tame {p : Params ℝ} {est : Estimator} {atol rtol : ℝ} {l : List Setter} (H : Library p est atol rtol l) (ha : 0 < atol) (hr : 0 ≤ rtol)
    (h1 : 0 < (configured l).s1) (h2 : 0 < (configured l).s2) (hD : p.maxDepth ≤ 24) :
    Tame p atol (min 1 ((configured l).s2 * (min 1 (configured l).s1) ^ 50)) (1 / 200) where
  a0 := ha
  pos := lt_min one_pos (mul_pos h2 (pow_pos (lt_min one_pos h1) _))
  one := min_le_left _ _
  lam0 := by norm_num
  small y T1 T0 δ hδ hy h := by
    obtain ⟨x, hx, e, hq⟩ := estimator_small est ha hr y.length hy (fun i => y.getD i 0) T1 T0
    rw [H.err y T1 T0 hy] at e
    cases e
    exact ⟨hx, hq δ hδ h⟩
  next k e hk1 hk he0 he := pid_next l h1 h2 (by omega) (by omega) he0 he (H.next (2 * k + 1) e (by omega) he0)
  low k r hk1 hk := (limiter_low l (by omega) (by omega) (H.limiter (2 * k + 1) r (by omega))).1
  up k r hk1 hk := (limiter_low l (by omega) (by omega) (H.limiter (2 * k + 1) r (by omega))).2

/-- Non-vacuity: there are such parameters, for every estimator, tolerance, setting and depth. -/
theorem library_exists (D : Nat) (kdk : Bool) (est : Estimator) {atol rtol : ℝ} (ha : 0 < atol) (hr : 0 ≤ rtol) (l : List Setter)
    (h2 : 0 < (configured l).s2) : ∃ p : Params ℝ, p.maxDepth = D ∧ p.kdk = kdk ∧ Library p est atol rtol l := by
  have he : ∀ (y : List ℝ) (a b : Arr ℝ), ∃ x, 1 ≤ y.length → est.error (fin atol) (fin rtol) y.length (nums fun i => y.getD i 0) (nums a) (nums b) = fin x := by
    intro y a b
    by_cases hy : 1 ≤ y.length
    · obtain ⟨x, _, e, _⟩ := estimator_small est ha hr y.length hy (fun i => y.getD i 0) a b
      exact ⟨x, fun _ => e⟩
    · exact ⟨0, fun h => absurd h hy⟩
  have hn : ∀ (o : Nat) (e : ℝ), ∃ x, o < 50 → 0 ≤ e → (configured l).next o e = .ok x := by
    intro o e
    by_cases ho : o < 50 ∧ 0 ≤ e
    · have : ∃ x, (configured l).next o e = .ok x := by
        unfold PID.next PID.pow
        have := ho.2
        rw [if_pos ho.1, if_neg (not_lt.2 (by positivity))]
        split_ifs <;> exact ⟨_, rfl⟩
      obtain ⟨x, hx⟩ := this
      exact ⟨x, fun _ _ => hx⟩
    · exact ⟨0, fun h1 h2 => absurd ⟨h1, h2⟩ ho⟩
  choose err herr using he
  choose next hnext using hn
  exact ⟨⟨D, kdk, err, next, fun o r => min (max (lower o) r) (upper o)⟩, rfl, rfl, herr, hnext, fun o r ho => limiter_ok l ho r⟩

end SpaceHub.BS

namespace SpaceHub.Sys
open SpaceHub V3 Force Core Integrator Spec Props Finset Converge BS BS.Spec
open scoped ContDiff

theorem norm_le_len (a : V3 ℝ) : ‖co a‖ ≤ len a := by
  have h : ∀ b : ℝ, b * b ≤ dot a a → ‖b‖ ≤ len a := fun b hb => by
    unfold len
    rw [Real.norm_eq_abs, ← Real.sqrt_sq_eq_abs, sq]
    exact Real.sqrt_le_sqrt hb
  unfold dot at h
  refine max_le (h a.x ?_) (max_le (h a.y ?_) (h a.z ?_)) <;> nlinarith [mul_self_nonneg a.x, mul_self_nonneg a.y, mul_self_nonneg a.z]

theorem region_box {n : Nat} {m : Nat → ℝ} {d R : ℝ} (hR : 0 ≤ R) {P : Particles} (H : InRegion n m d R P) : (conf n P.pos, conf n P.vel) ∈ box n (d / 2) R := by
  refine ⟨(pi_norm_le_iff_of_nonneg hR).2 fun k => (norm_le_len _).trans (H.pos k k.2), (pi_norm_le_iff_of_nonneg hR).2 fun k => (norm_le_len _).trans (H.vel k k.2),
    fun i j hij => ?_⟩
  have h1 := (H.apart i j i.2 j.2 (fun e => hij (Fin.ext e))).trans (len_le_norm _)
  rw [co_sub] at h1
  show d / 2 ≤ ‖co (P.pos i) - co (P.pos j)‖
  linarith

/-- an entry of the variables, by its kind -/
theorem val_close {n : Nat} {x y : Simple} (hx : x.P.num = n) (hy : y.P.num = n) {B : ℝ} (ht : |y.time - x.time| ≤ B)
    (hc : ‖(conf n y.P.pos, conf n y.P.vel) - (conf n x.P.pos, conf n x.P.vel)‖ ≤ B) {i : Nat} (hi : i < 1 + 6 * n) :
    |y.flat.val gravity.velDep i - x.flat.val gravity.velDep i| ≤ B := by
  have h1 := (norm_fst_le _).trans hc
  have h2 := (norm_snd_le _).trans hc
  have comps : ∀ (u w : Nat → V3 ℝ), ‖conf n u - conf n w‖ ≤ B → ∀ k c, k < n → |SpaceHub.Sys.comp (u k) c - SpaceHub.Sys.comp (w k) c| ≤ B := by
    intro u w huw k c hk
    have a := (norm_le_pi_norm (conf n u - conf n w) ⟨k, hk⟩).trans huw
    have a1 := (norm_fst_le _).trans a
    have a2 := (norm_fst_le _).trans ((norm_snd_le _).trans a)
    have a3 := (norm_snd_le _).trans ((norm_snd_le _).trans a)
    unfold SpaceHub.Sys.comp
    by_cases c0 : c = 0
    · rw [if_pos c0, if_pos c0]; exact a1
    rw [if_neg c0, if_neg c0]
    by_cases c1 : c = 1
    · rw [if_pos c1, if_pos c1]; exact a2
    · rw [if_neg c1, if_neg c1]; exact a3
  unfold Flat.val
  have ex : x.flat.n = n := hx
  have ey : y.flat.n = n := hy
  rw [ex, ey]
  by_cases c0 : i = 0
  · rw [if_pos c0, if_pos c0]; exact ht
  rw [if_neg c0, if_neg c0]
  by_cases c1 : i < 1 + 3 * n
  · rw [if_pos c1, if_pos c1]
    exact comps _ _ h1 _ _ (by omega)
  rw [if_neg c1, if_neg c1, if_pos hi, if_pos hi]
  exact comps _ _ h2 _ _ (by omega)

/-- small steps from a region meet no obstacle -/
theorem simple_goes (n : Nat) (m : Nat → ℝ) {d R : ℝ} (hd : 0 < d) (hR : 0 ≤ R) (D : Nat) {a e0 lam : ℝ} (ha : 0 < a) (he0 : 0 < e0) :
    ∃ ρ : ℝ, 0 < ρ ∧ ∀ (p : Params ℝ) (kdk : Bool) (s : Simple), p.maxDepth = D → Tame p a e0 lam → InRegion n m d R s.P → ∀ h, 0 < h → h ≤ ρ →
      Goes (simpleSys gravity kdk) p (s.write gravity) (FreshOf (simpleSys gravity kdk) s Simple.Frame (SameSimple gravity) Simple.sync) h := by
  obtain ⟨NN, W, hB⟩ := extrap_bounded D
  obtain ⟨C, ρ, hC, hρ, mv⟩ := words_move ((free_open n).preimage continuous_fst) (plain_smooth n m) (box_compact n (d / 2) R) (box_free (by linarith)) NN
  have hW : 0 ≤ W := (Finset.sum_nonneg fun _ _ => abs_nonneg _).trans (hB true 0 0 (Nat.zero_le _)).weight
  refine ⟨min ρ (e0 * a / (2 * W * (C + 1) + 1)), lt_min hρ (by positivity), fun p kdk s hpD hT hreg h h0 hle => ?_⟩
  have hle1 := hle.trans (min_le_left _ _)
  have hle2 := hle.trans (min_le_right _ _)
  have L := simple_lawful gravity kdk s
  have hlen : (s.write gravity).length = 1 + 6 * n := by
    rw [C13_simple_size]
    unfold Simple.variableNumber
    rw [hreg.num]
    show n * 3 * (2 + 0) + 1 = _
    omega
  have hwl : ∀ x, Simple.Frame s x → (s.write gravity).length = x.variableNumber gravity := fun x f => by
    rw [C13_simple_size]; unfold Simple.variableNumber; rw [f.1]
  refine ⟨fun x j _ _ => run_simple_ok gravity kdk h _ x, fun x k y v hx e hv => ?_, fun k start row T0 T1 hk1 hkD hrow hTT => ?_⟩
  · exact read_simple_ok gravity kdk y v (hv.trans (hwl y (L.trans _ _ _ hx.1 (L.run _ _ _ _ hx.2.1 e).2.1)))
  rw [hpD] at hkD hrow hTT
  have inc : ∀ i, i < (s.write gravity).length → ∀ j, j ≤ k → |(simpleSys gravity kdk).inc (row j) i| ≤ (C + 1) * h := by
    intro i hi j hj
    obtain ⟨hf, e⟩ := hrow j hj
    rw [fresh_inc L hf e hi]
    show |((row j).write gravity).getD i 0 - (s.write gravity).getD i 0| ≤ _
    rw [Simple.write_getD, Simple.write_getD]
    obtain ⟨_, _, _, ⟨b0, b1, b2, b3⟩, _⟩ := hf
    have hpos : 1 ≤ hSeq D j := hSeq_pos (by omega)
    obtain ⟨r, e2, a1, a2, a3⟩ := stages_link (m := m) h (subStages kdk (hSeq D j)) (start j) (b1.trans hreg.num) (fun i hi => by rw [b2]; exact hreg.mass i hi)
    rw [subStages_calls kdk h _ hpos] at e2
    have e' : (simpleOps gravity).run (if kdk then substepsKDK h (hSeq D j) else substepsDKD h (hSeq D j)) (start j) = .ok (row j) := e
    rw [e'] at e2
    cases e2
    refine val_close hreg.num a1 ?_ ?_ (by omega)
    · obtain ⟨t1, t2⟩ := driftTime_substeps h (hSeq D j) hpos
      obtain ⟨t, ht, htt⟩ := C17_simple_time gravity (if kdk then substepsKDK h (hSeq D j) else substepsDKD h (hSeq D j)) (start j)
      rw [e'] at ht
      cases ht
      have : (row j).time = s.time + h := by
        rw [htt, b0]
        cases kdk
        · exact congrArg _ t1
        · exact congrArg _ t2
      rw [this, add_sub_cancel_left, abs_of_pos h0]
      nlinarith
    · rw [a3, ← plain_step]
      have c1 : conf n (start j).P.pos = conf n s.P.pos := funext fun i => congrArg co (b3 i (by rw [hreg.num]; exact i.2)).1
      have c2 : conf n (start j).P.vel = conf n s.P.vel := funext fun i => congrArg co (b3 i (by rw [hreg.num]; exact i.2)).2.1
      rw [c1, c2]
      have q := hB kdk 0 k (by omega)
      refine (mv _ (region_box hR hreg) _ (q.len j (by simp [extrapMix]; omega)) (q.coef j (by simp [extrapMix]; omega)) h h0.le hle1).trans ?_
      nlinarith
  have zs : ∀ i, i < (s.write gravity).length → ∀ b, b ≤ 1 → |zeroStep (hSeq D) (fun j => (simpleSys gravity kdk).inc (row j) i) b k| ≤ W * ((C + 1) * h) := by
    intro i hi b hb
    rw [zeroStep_weight]
    refine (Finset.abs_sum_le_sum_abs _ _).trans ?_
    refine (Finset.sum_le_sum fun j hj => ?_).trans (b := ∑ j ∈ Icc b k, |weight D b k j| * ((C + 1) * h)) ?_
    · rw [abs_mul]
      exact mul_le_mul_of_nonneg_left (inc i hi j (Finset.mem_Icc.1 hj).2) (abs_nonneg _)
    · rw [← Finset.sum_mul]
      exact mul_le_mul_of_nonneg_right (hB kdk b k (by omega)).weight (by positivity)
  have close : ∀ i, i < (s.write gravity).length → |T0 i - T1 i| ≤ e0 * a := by
    intro i hi
    obtain ⟨q0, q1⟩ := hTT i hi
    rw [q0, q1]
    refine (abs_sub _ _).trans ((add_le_add (zs i hi 0 (by omega)) (zs i hi 1 le_rfl)).trans ?_)
    rw [le_div_iff₀ (by positivity)] at hle2
    nlinarith
  obtain ⟨s1, s2⟩ := hT.small (s.write gravity) T1 T0 e0 he0.le (by omega) close
  exact ⟨s2.trans hT.one, hT.next k _ hk1 (by omega) s1 s2⟩

theorem accepted_time {kdk : Bool} {p : Params ℝ} {s s' : Simple} {h : ℝ}
    (A : Accepted (simpleSys gravity kdk) p (s.write gravity) (FreshOf (simpleSys gravity kdk) s Simple.Frame (SameSimple gravity) Simple.sync) h s') :
    s'.time = s.time + h := by
  obtain ⟨k, start, row, T0, T1, hk1, hkD, hrow, hT, _, s'', hread, rfl⟩ := A
  have L := simple_lawful gravity kdk s
  have hlen : 0 < (s.write gravity).length := by
    rw [C13_simple_size]; unfold Simple.variableNumber; omega
  have hk := hrow k le_rfl
  obtain ⟨_, _, w4⟩ := L.read _ _ _ (L.trans _ _ _ hk.1.1 (L.run _ _ _ _ hk.1.2.1 hk.2).2.1) hread
  have e0 : ∀ x : Simple, x.time = (x.write gravity).getD 0 0 := fun x => by rw [Simple.write_getD]; rfl
  have e1 : (Simple.time ((simpleSys gravity kdk).collect false s'')) = ((s''.write gravity)).getD 0 0 := by
    rw [e0]; exact congrArg (fun w : List ℝ => w.getD 0 0) (L.collect_write false s'')
  have e2 : (s''.write gravity).getD 0 0 = s.time + T0 0 := by
    have : s''.write gravity = (s.write gravity).mapIdx fun i x => x + T0 i := w4
    rw [this, List.getD_eq_getElem _ _ (by rw [List.length_mapIdx]; exact hlen), List.getElem_mapIdx, e0 s, List.getD_eq_getElem _ _ hlen]
  rw [e1, e2, (hT 0 hlen).1]
  congr 1
  refine (zeroStep_congr (y' := fun _ => h) fun j _ hj => ?_).trans (zeroLin_const (Nat.zero_le _) hkD _)
  obtain ⟨hf, e⟩ := hrow j hj
  rw [fresh_inc L hf e hlen]
  show ((row j).write gravity).getD 0 0 - (s.write gravity).getD 0 0 = h
  rw [← e0, ← e0]
  obtain ⟨t1, t2⟩ := driftTime_substeps h (hSeq p.maxDepth j) (hSeq_pos (by omega))
  obtain ⟨t, ht, htt⟩ := C17_simple_time gravity (if kdk then substepsKDK h (hSeq p.maxDepth j) else substepsDKD h (hSeq p.maxDepth j)) (start j)
  have e' : (simpleOps gravity).run (if kdk then substepsKDK h (hSeq p.maxDepth j) else substepsDKD h (hSeq p.maxDepth j)) (start j) = .ok (row j) := e
  rw [e'] at ht
  cases ht
  rw [htt, hf.2.2.2.1.1]
  cases kdk
  · have : s.time + driftTime (substepsDKD h (hSeq p.maxDepth j)) - s.time = h := by rw [t1]; ring
    exact this
  · have : s.time + driftTime (substepsKDK h (hSeq p.maxDepth j)) - s.time = h := by rw [t2]; ring
    exact this

/-- An iterator before its first call: as constructed. -/
def Unused (D : Nat) (c : State ℝ) : Prop := c.first = true ∧ c.rank + 1 ≤ D
/-- An iterator that has been called, with its rank in the range where calls touch only their tables. -/
def Used (D : Nat) (c : State ℝ) : Prop := c.first = false ∧ 1 ≤ c.rank ∧ c.rank ≤ D - 1

/-- **C96.** For particles in a bounded region, at bounded speed and not closer than `d` to each other, there is a step `ρ` such that every call of Bulirsch-Stoer with
a step of at most `ρ` returns, has advanced the system by exactly that step, and proposes a step that is not shorter.  Any positive absolute tolerance. -/
theorem C96_small_step (n : Nat) (m : Nat → ℝ) {d R : ℝ} (hd : 0 < d) (hR : 0 ≤ R) {D : Nat} (hD : 3 ≤ D) (hD' : D ≤ 24) (est : Estimator) {atol rtol : ℝ}
    (ha : 0 < atol) (hr : 0 ≤ rtol) (l : List Ctl.Setter) (h1 : 0 < (Ctl.configured l).s1) (h2 : 0 < (Ctl.configured l).s2) :
    ∃ ρ : ℝ, 0 < ρ ∧ ∀ (p : Params ℝ) (kdk : Bool), p.maxDepth = D → Library p est atol rtol l → ∀ (s : Simple) (c : State ℝ) (h : ℝ),
      InRegion n m d R s.P → Unused D c ∨ Used D c → 0 < h → h ≤ ρ →
      ∃ s' h' c', iterate (simpleSys gravity kdk) p h c s = .ok (s', h', c') ∧ s'.time = s.time + h ∧ h ≤ h' ∧ Used D c' := by
  have hT : ∀ p : Params ℝ, p.maxDepth = D → Library p est atol rtol l → Tame p atol _ (1 / 200) := fun p hp H => library_tame H ha hr h1 h2 (by omega)
  obtain ⟨ρ, hρ, go⟩ := simple_goes n m hd hR D (lam := 1 / 200) ha (lt_min one_pos (mul_pos h2 (pow_pos (lt_min one_pos h1) 50)))
  refine ⟨ρ, hρ, fun p kdk hp H s c h hreg hc h0 hle => ?_⟩
  have T := hT p hp H
  have L := simple_lawful gravity kdk s
  obtain ⟨r1, r2⟩ := C28_simple_system gravity kdk
  subst hp
  have hc' : Ready p.maxDepth c := hc
  obtain ⟨s', h', c', e, acc, hf, hrk, o, r, o1, o2, hr1, hh⟩ := attempts_goes (simpleSys gravity kdk) p _ _ (fresh_restores L) hD h0 (go p kdk s rfl T hreg h h0 hle) 99 c
    ((simpleSys gravity kdk).collect true s) (fresh_start L) hc'
  refine ⟨s', h', c', e, accepted_time acc, ?_, ?_⟩
  · rw [hh]; exact le_mul_of_one_le_right h0.le (T.up o r o1 o2 hr1)
  · rcases hc with hu | hu
    · exact ⟨hf, by rw [hrk hu.1], by rw [hrk hu.1]; omega⟩
    · exact ((attempts_later _ p _ hD r1 r2 100 h c _ hu).2 _ e).1

/-- The steps do not collapse: in a simulation whose particles stay in such a region, and whose first step is at most `ρ` if the iterator is new, every accepted step
and every proposed step is at least the smaller one of the first step and `ρ / 200`.  So `N` calls advance the time by at least `N` times that. -/
theorem C96_no_collapse (n : Nat) (m : Nat → ℝ) {d R : ℝ} (hd : 0 < d) (hR : 0 ≤ R) {D : Nat} (hD : 3 ≤ D) (hD' : D ≤ 24) (est : Estimator) {atol rtol : ℝ}
    (ha : 0 < atol) (hr : 0 ≤ rtol) (l : List Ctl.Setter) (h1 : 0 < (Ctl.configured l).s1) (h2 : 0 < (Ctl.configured l).s2) :
    ∃ ρ : ℝ, 0 < ρ ∧ ∀ (p : Params ℝ) (kdk : Bool), p.maxDepth = D → Library p est atol rtol l →
      ∀ (N : Nat) (s : Nat → Simple) (c : Nat → State ℝ) (h : Nat → ℝ), 0 < h 0 → Used D (c 0) ∨ Unused D (c 0) ∧ h 0 ≤ ρ →
      (∀ i, i < N → InRegion n m d R (s i).P) →
      (∀ i, i < N → iterate (simpleSys gravity kdk) p (h i) (c i) (s i) = .ok (s (i + 1), h (i + 1), c (i + 1))) →
      (∀ i, i < N → min (h 0) (ρ / 200) ≤ (s (i + 1)).time - (s i).time ∧ min (h 0) (ρ / 200) ≤ h (i + 1)) ∧
        (s 0).time + N * min (h 0) (ρ / 200) ≤ (s N).time := by
  have hT : ∀ p : Params ℝ, p.maxDepth = D → Library p est atol rtol l → Tame p atol _ (1 / 200) := fun p hp H => library_tame H ha hr h1 h2 (by omega)
  obtain ⟨ρ, hρ, go⟩ := simple_goes n m hd hR D (lam := 1 / 200) ha (lt_min one_pos (mul_pos h2 (pow_pos (lt_min one_pos h1) 50)))
  refine ⟨ρ, hρ, fun p kdk hp H N s c h h0 hc hreg hit => ?_⟩
  have T := hT p hp H
  obtain ⟨r1, r2⟩ := C28_simple_system gravity kdk
  subst hp
  set μ := min (h 0) (ρ / 200) with hμ
  have μ0 : 0 < μ := lt_min h0 (by positivity)
  have key : ∀ i, i ≤ N → μ ≤ h i ∧ (Used p.maxDepth (c i) ∨ i = 0) ∧ ∀ j, j < i → μ ≤ (s (j + 1)).time - (s j).time ∧ μ ≤ h (j + 1) := by
    intro i
    induction i with
    | zero => exact fun _ => ⟨min_le_left _ _, .inr rfl, fun j hj => absurd hj (by omega)⟩
    | succ i ih =>
      intro hi
      obtain ⟨a1, a2, a3⟩ := ih (by omega)
      have L := simple_lawful gravity kdk (s i)
      have hready : Ready p.maxDepth (c i) := by
        rcases a2 with hu | rfl
        · exact .inr hu
        · rcases hc with hu | ⟨hu, _⟩
          · exact .inr hu
          · exact .inl hu
      have hit' := hit i (by omega)
      obtain ⟨hAcc, b1, acc, b2⟩ := attempts_keep (simpleSys gravity kdk) p _ _ (fresh_restores L) hD r1 r2 (lam := 1 / 200) (ρ := 200 * μ) (by norm_num) (by linarith)
        T.low T.up (fun h' q0 q1 => go p kdk (s i) rfl T (hreg i (by omega)) h' q0 (q1.trans (by have := min_le_right (h 0) (ρ / 200); rw [← hμ] at this; linarith)))
        100 (h i) (c i) ((simpleSys gravity kdk).collect true (s i)) (by linarith) (fresh_start L) hready _ _ _ hit'
      have tm := accepted_time acc
      refine ⟨by linarith, .inl ?_, fun j hj => ?_⟩
      · have later : Used p.maxDepth (c i) → Used p.maxDepth (c (i + 1)) := fun hu => ((attempts_later _ p _ hD r1 r2 100 (h i) (c i) _ hu).2 _ hit').1
        rcases a2 with hu | rfl
        · exact later hu
        · rcases hc with hu | ⟨hu, hle⟩
          · exact later hu
          · obtain ⟨s', h', c', e, _, hf, hrk, _⟩ := attempts_goes (simpleSys gravity kdk) p _ _ (fresh_restores L) hD h0
              (go p kdk (s 0) rfl T (hreg 0 (by omega)) (h 0) h0 hle) 99 (c 0) ((simpleSys gravity kdk).collect true (s 0)) (fresh_start L) hready
            have e' : iterate (simpleSys gravity kdk) p (h 0) (c 0) (s 0) = .ok (s', h', c') := e
            rw [e'] at hit'
            obtain ⟨_, _, rfl⟩ : s' = s 1 ∧ h' = h 1 ∧ c' = c 1 := by
              have := Res.ok.inj hit'
              simp only [Prod.mk.injEq] at this
              exact this
            exact ⟨hf, by rw [hrk hu.1], by rw [hrk hu.1]; omega⟩
      · rcases Nat.lt_succ_iff_lt_or_eq.1 hj with hj | rfl
        · exact a3 j hj
        · exact ⟨by linarith, by linarith⟩
  obtain ⟨_, _, a3⟩ := key N le_rfl
  refine ⟨a3, ?_⟩
  have sum : ∀ i, i ≤ N → (s 0).time + i * μ ≤ (s i).time := by
    intro i
    induction i with
    | zero => intro _; simp
    | succ i ih =>
      intro hi
      have := ih (by omega)
      have := (a3 i (by omega)).1
      push_cast
      linarith
  exact sum N le_rfl

theorem circle_region (t0 : ℝ) : InRegion 2 (fun _ => 1 / 2) 1 1 ⟨2, circlePos t0, circleVel t0, fun _ => 1 / 2⟩ := by
  have one : Real.cos t0 * Real.cos t0 + Real.sin t0 * Real.sin t0 = 1 := by nlinarith [Real.sin_sq_add_cos_sq t0]
  refine ⟨rfl, fun _ _ => rfl, fun k hk => ?_, fun k hk => ?_, fun i j hi hj hij => ?_⟩
  · obtain rfl | rfl : k = 0 ∨ k = 1 := by omega
    all_goals
      unfold len
      rw [Real.sqrt_le_one]
      simp [dot, circlePos]
      nlinarith
  · obtain rfl | rfl : k = 0 ∨ k = 1 := by omega
    all_goals
      unfold len
      rw [Real.sqrt_le_one]
      simp [dot, circleVel]
      nlinarith
  · obtain ⟨rfl, rfl⟩ | ⟨rfl, rfl⟩ : i = 0 ∧ j = 1 ∨ i = 1 ∧ j = 0 := by omega
    all_goals
      unfold len
      rw [Real.one_le_sqrt]
      simp [dot, circlePos]
      nlinarith

/-- Non-vacuity: two masses on circles, the `RMS` estimator with the default tolerances and the iterator's own settings, the default depth 7: every short first call of a
fresh iterator returns. -/
theorem circle_small_step (t0 : ℝ) : ∃ ρ : ℝ, 0 < ρ ∧ ∃ p : Params ℝ, p.maxDepth = 7 ∧ Library p .rms (1 / 10 ^ 13) (1 / 10 ^ 13) [.guards (72 / 100) (95 / 100)] ∧ ∀ h, 0 < h → h ≤ ρ →
    ∃ s' h' c', iterate (simpleSys gravity false) p h (State.init 7) (Simple.init t0 ⟨2, circlePos t0, circleVel t0, fun _ => 1 / 2⟩) = .ok (s', h', c') ∧
      s'.time = t0 + h ∧ h ≤ h' := by
  have g1 : (Ctl.configured [.guards (72 / 100) (95 / 100)]).s1 = 72 / 100 := rfl
  have g2 : (Ctl.configured [.guards (72 / 100) (95 / 100)]).s2 = 95 / 100 := rfl
  obtain ⟨p, hp, _, H⟩ := library_exists 7 false .rms (atol := 1 / 10 ^ 13) (rtol := 1 / 10 ^ 13) (by positivity) (by positivity) [.guards (72 / 100) (95 / 100)]
    (by rw [g2]; norm_num)
  obtain ⟨ρ, hρ, key⟩ := C96_small_step 2 (fun _ => 1 / 2) (d := 1) (R := 1) one_pos zero_le_one (D := 7) (by norm_num) (by norm_num) .rms (atol := 1 / 10 ^ 13)
    (rtol := 1 / 10 ^ 13) (by positivity) (by positivity) [.guards (72 / 100) (95 / 100)] (by rw [g1]; norm_num) (by rw [g2]; norm_num)
  refine ⟨ρ, hρ, p, hp, H, fun h h0 hle => ?_⟩
  have reg := circle_region t0
  obtain ⟨s', h', c', e, a, b, _⟩ := key p false hp H (Simple.init t0 ⟨2, circlePos t0, circleVel t0, fun _ => 1 / 2⟩) (State.init 7) h reg
    (.inl ⟨rfl, by show 7 - 1 + 1 ≤ 7; norm_num⟩) h0 hle
  exact ⟨s', h', c', e, a, b⟩

end SpaceHub.Sys
