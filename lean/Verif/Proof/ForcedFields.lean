import Verif.Proof.Forced
import Verif.Model.Forces
import Verif.Props.Force
import Verif.Proof.Evolve

/-
The forces of the library as fields of accelerations, and where these are smooth.
-/

set_option autoImplicit false

namespace SpaceHub.Sys
open SpaceHub V3 Force Core Integrator Spec Props Finset Converge
open scoped ContDiff

/-- the force class of an additional force -/
noncomputable def libOf (G c : ℝ) : Extra → ForceClass Particles
  | .pn1 => Lib.pn G c .pn1
  | .pn2p5 => Lib.pn G c .pn2p5
  | .tides k tau rad => Lib.tidal G ⟨k, tau, rad⟩
  | .drag q cs => Lib.drag q cs

/-- the force class of an additional force, on chain systems -/
noncomputable def libChainOf (G c : ℝ) : Extra → ChainForce
  | .pn1 => Lib.pnC G c .pn1
  | .pn2p5 => Lib.pnC G c .pn2p5
  | .tides k tau rad => Lib.tidalC G ⟨k, tau, rad⟩
  | .drag q cs => Lib.dragC q cs

theorem sum_fin {n : Nat} (F : Nat → V3 ℝ) (k : Fin n) : ∑ j ∈ (range n).erase k, F j = ∑ j ∈ univ.erase k, F j := by
  refine (sum_bij (fun (j : Fin n) _ => (j : Nat)) ?_ ?_ ?_ ?_).symm
  · intro j hj
    simp only [mem_erase, mem_range]
    exact ⟨fun h => (mem_erase.1 hj).1 (Fin.ext h), j.2⟩
  · intro a _ b _ h; exact Fin.ext h
  · intro b hb
    have h := mem_erase.1 hb
    exact ⟨⟨b, mem_range.1 h.2⟩, mem_erase.2 ⟨fun e => h.1 (congrArg Fin.val e), mem_univ _⟩, rfl⟩
  · intro _ _; rfl

theorem adds_of {f : ForceClass Particles} {P : Particles} {F : Nat → Nat → V3 ℝ} (h : ∀ acc, Accumulates P.num F acc (f.addAccTo P acc)) :
    Adds f P (fun k => if k < P.num then ∑ j ∈ (range P.num).erase k, F k j else 0) := by
  intro acc k
  rcases Nat.lt_or_ge k P.num with hk | hk
  · dsimp only; rw [if_pos hk]; exact (h acc).1 k hk
  · dsimp only; rw [if_neg (by omega), add_zero]; exact (h acc).2 k hk

theorem drag_adds (q cs : Arr ℝ) (P : Particles) : Adds (Lib.drag q cs) P (fun k => if k < P.num then
    (if len (P.vel k) < cs k then -((q k * P.mass k) • P.vel k) else
      -((3 * Real.sqrt (Real.pi / 2) * q k * cs k ^ 3 * P.mass k / len (P.vel k) ^ 3) • P.vel k)) else 0) := by
  intro acc k
  show staticDragAcc q cs P acc k = _
  unfold staticDragAcc
  rw [forLoop_add 0 P.num _ (fun i k => if k = i then
    (if len (P.vel i) < cs i then -((q i * P.mass i) • P.vel i) else
      -((3 * Real.sqrt (Real.pi / 2) * q i * cs i ^ 3 * P.mass i / len (P.vel i) ^ 3) • P.vel i)) else 0)]
  · congr 1
    rw [Nat.Ico_zero_eq_range, sum_ite_eq]
    simp [mem_range]
  · intro i _ _ a k
    have e : 3 * Real.sqrt (Real.pi / 2) * q i * cs i ^ 3 * P.mass i / len (P.vel i) ^ 3 =
        3 * Real.sqrt (Real.pi / 2) * q i * cs i * cs i * cs i * P.mass i / (norm (P.vel i) * norm (P.vel i) * norm (P.vel i)) := by
      rw [← len_eq_norm]; ring
    rw [e]
    simp only [len_eq_norm]
    by_cases h : norm (P.vel i) < cs i <;>
      by_cases hk : k = i <;> simp [h, hk, subAt, Arr.set, sub_eq_add_neg]

/-- the acceleration of particle `k` by an additional force -/
theorem lib_adds (G c : ℝ) (e : Extra) (P : Particles) : ∃ g, Adds (libOf G c e) P g ∧
    ∀ k : Fin P.num, g k = e.field G c P.num P.mass (fun j => P.pos j) (fun j => P.vel j) k := by
  cases e with
  | pn1 =>
    refine ⟨_, adds_of fun acc => (C10_pn1 G c P acc).1, fun k => ?_⟩
    rw [if_pos k.2, sum_fin]
    rfl
  | pn2p5 =>
    refine ⟨_, adds_of fun acc => (C10_pn2p5 G c P acc).1, fun k => ?_⟩
    rw [if_pos k.2, sum_fin]
    rfl
  | tides a tau rad =>
    refine ⟨_, adds_of (f := Lib.tidal G ⟨a, tau, rad⟩) fun acc => directLoops_spec (tidal_symmetric G ⟨a, tau, rad⟩ P) acc, fun k => ?_⟩
    rw [if_pos k.2, sum_fin]
    rfl
  | drag q cs =>
    refine ⟨_, drag_adds q cs P, fun k => ?_⟩
    rw [if_pos k.2]
    rfl

theorem newton_adds (P : Particles) : Adds Lib.newton P (fun k => if k < P.num then ∑ j ∈ (range P.num).erase k, newton (P.mass j) (P.pos k) (P.pos j) else 0) :=
  adds_of fun acc => C06_newton_direct P acc

theorem lib_velDep (G c : ℝ) (e : Extra) : (libOf G c e).velDep = true := by cases e <;> rfl

/-- the forces of the library give the accelerations of the formulas -/
theorem lib_acts (G c : ℝ) (n : Nat) (m : Nat → ℝ) (fs : List Extra) : Acts ⟨Lib.newton, fs.map (libOf G c)⟩ n m (withExtras G c n m fs) := by
  refine ⟨⟨fun _ _ _ => rfl, fun f hf h => ?_⟩, fun f hf P => ?_, fun P hn hm k => ?_⟩
  · obtain ⟨e, _, rfl⟩ := List.mem_map.1 hf
    rw [lib_velDep] at h; cases h
  · rcases List.mem_cons.1 hf with rfl | hf
    · exact ⟨_, newton_adds P⟩
    · obtain ⟨e, _, rfl⟩ := List.mem_map.1 hf
      exact ⟨_, (lib_adds G c e P).choose_spec.1⟩
  · obtain ⟨N, x, v, M⟩ := P
    have hn' : n = N := hn.symm
    subst hn'
    have fold : ∀ (l : List Extra) (a : Arr (V3 ℝ)), (l.map (libOf G c)).foldl (fun acc f => f.addAccTo ⟨n, x, v, M⟩ acc) a k =
        a k + (l.map fun f => f.field G c n M (fun j => x j) (fun j => v j) k).sum := by
      intro l
      induction l with
      | nil => intro a; simp
      | cons f l ih =>
        intro a
        simp only [List.map_cons, List.foldl_cons, List.sum_cons]
        obtain ⟨g, h1, h2⟩ := lib_adds G c f ⟨n, x, v, M⟩
        rw [ih, h1, h2 k]
        simp only [add_assoc]
    have hf : ∀ f : Extra, f.field G c n M (fun j => x j) (fun j => v j) k = f.field G c n m (fun j => x j) (fun j => v j) k := by
      have hm' : ∀ j : Fin n, M j = m j := fun j => hm j j.2
      intro f
      cases f <;> simp only [Extra.field, pair, hm']
    have e1 : Interactions.acc ⟨Lib.newton, fs.map (libOf G c)⟩ ⟨n, x, v, M⟩ k =
        (fs.map (libOf G c)).foldl (fun acc f => f.addAccTo ⟨n, x, v, M⟩ acc) (Lib.newton.addAccTo ⟨n, x, v, M⟩ (setZero n (fun _ => 0))) k := rfl
    rw [e1, fold, newton_adds ⟨n, x, v, M⟩]
    dsimp only
    rw [if_pos k.2]
    have e2 : setZero n (fun _ => (0 : V3 ℝ)) k = 0 := by simp [setZero]
    rw [e2, zero_add, sum_fin]
    unfold withExtras
    simp only [hf]
    congr 1
    exact sum_congr rfl fun j _ => by rw [show M j = m j from hm j j.2]

/-! ### smoothness -/

section
variable {Z : Type*} [NormedAddCommGroup Z] [NormedSpace ℝ Z] {z : Z}

/-- a smooth vector function -/
def VD (F : Z → V3 ℝ) (z : Z) : Prop := ContDiffAt ℝ ∞ (fun y => co (F y)) z

theorem VD.add {F H : Z → V3 ℝ} (h1 : VD F z) (h2 : VD H z) : VD (fun y => F y + H y) z := ContDiffAt.add h1 h2
theorem VD.sub {F H : Z → V3 ℝ} (h1 : VD F z) (h2 : VD H z) : VD (fun y => F y - H y) z := ContDiffAt.sub h1 h2
theorem VD.neg {F : Z → V3 ℝ} (h1 : VD F z) : VD (fun y => -F y) z := ContDiffAt.neg h1
theorem VD.smul {f : Z → ℝ} {F : Z → V3 ℝ} (h1 : ContDiffAt ℝ ∞ f z) (h2 : VD F z) : VD (fun y => f y • F y) z := by
  unfold VD
  simp only [co_smul]
  exact ContDiffAt.smul h1 h2
theorem VD.div {f : Z → ℝ} {F : Z → V3 ℝ} (h1 : ContDiffAt ℝ ∞ f z) (h2 : VD F z) (h0 : f z ≠ 0) : VD (fun y => F y / f y) z := by
  have : (fun y => F y / f y) = fun y => (f y)⁻¹ • F y := by
    funext y; ext <;> simp [div_eq_inv_mul, mul_comm]
  rw [this]
  exact VD.smul (h1.inv h0) h2
theorem VD.dot {F H : Z → V3 ℝ} (h1 : VD F z) (h2 : VD H z) : ContDiffAt ℝ ∞ (fun y => V3.dot (F y) (H y)) z := by
  have a1 : ContDiffAt ℝ ∞ (fun y => (F y).x) z := ContDiffAt.fst h1
  have a2 : ContDiffAt ℝ ∞ (fun y => (F y).y) z := ContDiffAt.fst (ContDiffAt.snd h1)
  have a3 : ContDiffAt ℝ ∞ (fun y => (F y).z) z := ContDiffAt.snd (ContDiffAt.snd h1)
  have b1 : ContDiffAt ℝ ∞ (fun y => (H y).x) z := ContDiffAt.fst h2
  have b2 : ContDiffAt ℝ ∞ (fun y => (H y).y) z := ContDiffAt.fst (ContDiffAt.snd h2)
  have b3 : ContDiffAt ℝ ∞ (fun y => (H y).z) z := ContDiffAt.snd (ContDiffAt.snd h2)
  exact ((a1.mul b1).add (a2.mul b2)).add (a3.mul b3)
theorem VD.len {F : Z → V3 ℝ} (h1 : VD F z) (h0 : F z ≠ 0) : ContDiffAt ℝ ∞ (fun y => len (F y)) z :=
  (h1.dot h1).sqrt (dot_self_pos h0).ne'
theorem VD.sum {ι : Type*} [DecidableEq ι] {s : Finset ι} {F : ι → Z → V3 ℝ} (h : ∀ i ∈ s, VD (F i) z) : VD (fun y => ∑ i ∈ s, F i y) z := by
  unfold VD
  simp only [co_sum]
  exact ContDiffAt.sum h
theorem VD.listSum {ι : Type*} (l : List ι) {F : ι → Z → V3 ℝ} (h : ∀ i ∈ l, VD (F i) z) : VD (fun y => (l.map fun i => F i y).sum) z := by
  induction l with
  | nil => exact contDiffAt_const (c := ((0, 0, 0) : ℝ × ℝ × ℝ))
  | cons i l ih =>
    simp only [List.map_cons, List.sum_cons]
    exact (h i List.mem_cons_self).add (ih fun j hj => h j (List.mem_cons_of_mem _ hj))

variable {x1 x2 v1 v2 : Z → V3 ℝ} (m1 m2 : ℝ)

theorem smooth_newton (h1 : VD x1 z) (h2 : VD x2 z) (ne : x2 z ≠ x1 z) : VD (fun y => newton m2 (x1 y) (x2 y)) z := by
  have hd := h2.sub h1
  have hl := hd.len (sub_ne_zero.2 ne)
  exact VD.smul (contDiffAt_const.div (hl.pow 3) (pow_ne_zero _ ((len_pos_of (sub_ne_zero.2 ne)).ne'))) hd

variable (G c : ℝ) (h1 : VD x1 z) (h2 : VD x2 z) (h3 : VD v1 z) (h4 : VD v2 z) (ne : x1 z ≠ x2 z)
include h1 h2 h3 h4 ne

theorem smooth_pn1 : VD (fun y => (TwoBody.mk m1 m2 (x1 y) (x2 y) (v1 y) (v2 y)).pn1 G c) z := by
  have hd := h1.sub h2
  have hr := hd.len (sub_ne_zero.2 ne)
  have hr0 : len (x1 z - x2 z) ≠ 0 := (len_pos_of (sub_ne_zero.2 ne)).ne'
  have hn := VD.div hr hd hr0
  have n1 := hn.dot h3
  have n2 := hn.dot h4
  have s12 := h3.dot h4
  have s11 := h3.dot h3
  have s22 := h4.dot h4
  have hv := h3.sub h4
  simp only [TwoBody.pn1, TwoBody.r, TwoBody.n, TwoBody.nv1, TwoBody.nv2, TwoBody.vv, TwoBody.v1s, TwoBody.v2s]
  obtain ⟨r, er⟩ : ∃ r : Z → ℝ, r = fun y => len (x1 y - x2 y) := ⟨_, rfl⟩
  have er' : ∀ y, len (x1 y - x2 y) = r y := fun y => by rw [er]
  simp only [er'] at *
  obtain ⟨p1, ep1⟩ : ∃ g : Z → ℝ, g = fun y => V3.dot ((x1 y - x2 y) / r y) (v1 y) := ⟨_, rfl⟩
  have ep1' : ∀ y, V3.dot ((x1 y - x2 y) / r y) (v1 y) = p1 y := fun y => by rw [ep1]
  obtain ⟨p2, ep2⟩ : ∃ g : Z → ℝ, g = fun y => V3.dot ((x1 y - x2 y) / r y) (v2 y) := ⟨_, rfl⟩
  have ep2' : ∀ y, V3.dot ((x1 y - x2 y) / r y) (v2 y) = p2 y := fun y => by rw [ep2]
  obtain ⟨q, eq⟩ : ∃ g : Z → ℝ, g = fun y => V3.dot (v1 y) (v2 y) := ⟨_, rfl⟩
  have eq' : ∀ y, V3.dot (v1 y) (v2 y) = q y := fun y => by rw [eq]
  obtain ⟨q1, eq1⟩ : ∃ g : Z → ℝ, g = fun y => V3.dot (v1 y) (v1 y) := ⟨_, rfl⟩
  have eq1' : ∀ y, V3.dot (v1 y) (v1 y) = q1 y := fun y => by rw [eq1]
  obtain ⟨q2, eq2⟩ : ∃ g : Z → ℝ, g = fun y => V3.dot (v2 y) (v2 y) := ⟨_, rfl⟩
  have eq2' : ∀ y, V3.dot (v2 y) (v2 y) = q2 y := fun y => by rw [eq2]
  simp only [ep1', ep2', eq', eq1', eq2'] at *
  have k3 : r z ^ 3 ≠ 0 := pow_ne_zero _ hr0
  have k2 : r z ^ 2 ≠ 0 := pow_ne_zero _ hr0
  refine VD.smul contDiffAt_const (VD.add (VD.smul ?_ hn) (VD.smul ?_ hv))
  · fun_prop (disch := assumption)
  · fun_prop (disch := assumption)

theorem smooth_pn2p5 : VD (fun y => (TwoBody.mk m1 m2 (x1 y) (x2 y) (v1 y) (v2 y)).pn2p5 G c) z := by
  have hd := h1.sub h2
  have hr := hd.len (sub_ne_zero.2 ne)
  have hr0 : len (x1 z - x2 z) ≠ 0 := (len_pos_of (sub_ne_zero.2 ne)).ne'
  have hn := VD.div hr hd hr0
  have hv := h3.sub h4
  have n1 := hn.dot hv
  have s11 := hv.dot hv
  simp only [TwoBody.pn2p5, TwoBody.r, TwoBody.n]
  obtain ⟨r, er⟩ : ∃ r : Z → ℝ, r = fun y => len (x1 y - x2 y) := ⟨_, rfl⟩
  have er' : ∀ y, len (x1 y - x2 y) = r y := fun y => by rw [er]
  simp only [er'] at *
  obtain ⟨p1, ep1⟩ : ∃ g : Z → ℝ, g = fun y => V3.dot ((x1 y - x2 y) / r y) (v1 y - v2 y) := ⟨_, rfl⟩
  have ep1' : ∀ y, V3.dot ((x1 y - x2 y) / r y) (v1 y - v2 y) = p1 y := fun y => by rw [ep1]
  obtain ⟨q, eq⟩ : ∃ g : Z → ℝ, g = fun y => V3.dot (v1 y - v2 y) (v1 y - v2 y) := ⟨_, rfl⟩
  have eq' : ∀ y, V3.dot (v1 y - v2 y) (v1 y - v2 y) = q y := fun y => by rw [eq]
  simp only [ep1', eq'] at *
  have k3 : 5 * r z ^ 3 ≠ 0 := mul_ne_zero (by norm_num) (pow_ne_zero _ hr0)
  have k4 : 5 * r z ^ 4 ≠ 0 := mul_ne_zero (by norm_num) (pow_ne_zero _ hr0)
  have k5 : 15 * r z ^ 4 ≠ 0 := mul_ne_zero (by norm_num) (pow_ne_zero _ hr0)
  refine VD.smul contDiffAt_const (VD.add (VD.smul ?_ hn) (VD.smul ?_ hv))
  · fun_prop (disch := assumption)
  · fun_prop (disch := assumption)

theorem smooth_tidal (k1 k2 tau1 tau2 rad1 rad2 : ℝ) :
    VD (fun y => tidal G k1 k2 tau1 tau2 rad1 rad2 (TwoBody.mk m1 m2 (x1 y) (x2 y) (v1 y) (v2 y))) z := by
  have hd := h2.sub h1
  have hr := (h1.sub h2).len (sub_ne_zero.2 ne)
  have hr0 : len (x1 z - x2 z) ≠ 0 := (len_pos_of (sub_ne_zero.2 ne)).ne'
  have hv := h4.sub h3
  have n1 := hv.dot hd
  simp only [tidal, TwoBody.r]
  obtain ⟨r, er⟩ : ∃ r : Z → ℝ, r = fun y => len (x1 y - x2 y) := ⟨_, rfl⟩
  have er' : ∀ y, len (x1 y - x2 y) = r y := fun y => by rw [er]
  obtain ⟨p1, ep1⟩ : ∃ g : Z → ℝ, g = fun y => V3.dot (v2 y - v1 y) (x2 y - x1 y) := ⟨_, rfl⟩
  have ep1' : ∀ y, V3.dot (v2 y - v1 y) (x2 y - x1 y) = p1 y := fun y => by rw [ep1]
  simp only [er', ep1'] at *
  have k2 : r z ^ 2 ≠ 0 := pow_ne_zero _ hr0
  have k8 : r z ^ 8 ≠ 0 := pow_ne_zero _ hr0
  refine VD.smul ?_ hd
  fun_prop (disch := assumption)

end

/-- Around a state with the particles apart and no speed at a speed of sound the accelerations are smooth. -/
theorem field_smooth (G c : ℝ) (n : Nat) (m : Nat → ℝ) (e : Extra) (z : Conf n × Conf n) (hz : z.1 ∈ free n)
    (hd : ∀ q cs, e = .drag q cs → ∀ k : Fin n, len (ve (z.2 k)) < cs k ∨ cs k < len (ve (z.2 k)) ∧ ve (z.2 k) ≠ 0) (i : Fin n) :
    VD (fun y : Conf n × Conf n => e.field G c n m (fun j => ve (y.1 j)) (fun j => ve (y.2 j)) i) z := by
  have hx : ∀ j : Fin n, VD (fun y : Conf n × Conf n => ve (y.1 j)) z := fun j => ((contDiff_apply ℝ (ℝ × ℝ × ℝ) j).comp contDiff_fst).contDiffAt
  have hv : ∀ j : Fin n, VD (fun y : Conf n × Conf n => ve (y.2 j)) z := fun j => ((contDiff_apply ℝ (ℝ × ℝ × ℝ) j).comp contDiff_snd).contDiffAt
  have ne : ∀ j ∈ univ.erase i, ve (z.1 i) ≠ ve (z.1 j) := fun j hj h => hz i j (mem_erase.1 hj).1.symm (congrArg co h)
  cases e with
  | pn1 => exact VD.sum fun j hj => smooth_pn1 _ _ G c (hx i) (hx j) (hv i) (hv j) (ne j hj)
  | pn2p5 => exact VD.sum fun j hj => smooth_pn2p5 _ _ G c (hx i) (hx j) (hv i) (hv j) (ne j hj)
  | tides k tau rad => exact VD.sum fun j hj => smooth_tidal _ _ G (hx i) (hx j) (hv i) (hv j) (ne j hj) _ _ _ _ _ _
  | drag q cs =>
    have cl : ContinuousAt (fun y : Conf n × Conf n => len (ve (y.2 i))) z := by
      have : Continuous (fun y : Conf n × Conf n => len (ve (y.2 i))) := by
        unfold len V3.dot ve
        fun_prop
      exact this.continuousAt
    rcases hd q cs rfl i with h | ⟨h, h0⟩
    · refine ContDiffAt.congr_of_eventuallyEq (f := fun y : Conf n × Conf n => co (-((q i * m i) • ve (y.2 i)))) (VD.neg (VD.smul contDiffAt_const (hv i))) ?_
      filter_upwards [cl.eventually_lt continuousAt_const h] with y hy
      simp only [Extra.field, if_pos hy]
    · refine ContDiffAt.congr_of_eventuallyEq (f := fun y : Conf n × Conf n =>
        co (-((3 * Real.sqrt (Real.pi / 2) * q i * cs i ^ 3 * m i / len (ve (y.2 i)) ^ 3) • ve (y.2 i)))) (VD.neg (VD.smul ?_ (hv i))) ?_
      · exact contDiffAt_const.div (((hv i).len h0).pow 3) (pow_ne_zero _ ((len_pos_of h0).ne'))
      · filter_upwards [continuousAt_const.eventually_lt cl h] with y hy
        simp only [Extra.field, if_neg (not_lt.2 hy.le)]

theorem all_smooth (G c : ℝ) (n : Nat) (m : Nat → ℝ) (fs : List Extra) (z : Conf n × Conf n) (hz : z.1 ∈ free n)
    (hd : ∀ e ∈ fs, ∀ q cs, e = .drag q cs → ∀ k : Fin n, len (ve (z.2 k)) < cs k ∨ cs k < len (ve (z.2 k)) ∧ ve (z.2 k) ≠ 0) :
    ContDiffAt ℝ ∞ (inNumbers (withExtras G c n m fs)) z := by
  rw [contDiffAt_pi]
  intro i
  have hx : ∀ j : Fin n, VD (fun y : Conf n × Conf n => ve (y.1 j)) z := fun j => ((contDiff_apply ℝ (ℝ × ℝ × ℝ) j).comp contDiff_fst).contDiffAt
  have ne : ∀ j ∈ univ.erase i, ve (z.1 j) ≠ ve (z.1 i) := fun j hj h => hz j i (mem_erase.1 hj).1 (congrArg co h)
  exact VD.add (VD.sum fun j hj => smooth_newton _ (hx i) (hx j) (ne j hj)) (VD.listSum fs fun e he => field_smooth G c n m e z hz (hd e he) i)

/-- the accelerations by gravity and additional forces are smooth along every motion without collisions -/
theorem smooth_along (G c : ℝ) (n : Nat) (m : Nat → ℝ) (fs : List Extra) {x v : ℝ → Nat → V3 ℝ} {t0 t1 : ℝ}
    (apart : ∀ t ∈ Set.Icc t0 t1, ∀ i j, i < n → j < n → i ≠ j → x t i ≠ x t j) (away : ∀ e ∈ fs, e.Away n v t0 t1) :
    SmoothAlong (withExtras G c n m fs) x v t0 t1 := by
  have cl : ∀ k : Fin n, Continuous (fun y : Conf n × Conf n => len (ve (y.2 k))) := fun k => by
    unfold len V3.dot ve
    fun_prop
  let D : Extra → Set (Conf n × Conf n) := fun e => match e with
    | .drag _ cs => ⋂ k : Fin n, {z | len (ve (z.2 k)) < cs k} ∪ ({z | cs k < len (ve (z.2 k))} ∩ {z | z.2 k ≠ 0})
    | _ => Set.univ
  have hD : ∀ e, IsOpen (D e) := fun e => by
    cases e with
    | drag q cs =>
      refine isOpen_iInter_of_finite fun k => (isOpen_lt (cl k) continuous_const).union ((isOpen_lt continuous_const (cl k)).inter ?_)
      exact isOpen_ne_fun (by fun_prop) continuous_const
    | _ => exact isOpen_univ
  have hfs : IsOpen {z : Conf n × Conf n | ∀ e ∈ fs, z ∈ D e} := by
    clear away
    induction fs with
    | nil => simp
    | cons e l ih =>
      have : {z : Conf n × Conf n | ∀ f ∈ e :: l, z ∈ D f} = D e ∩ {z | ∀ f ∈ l, z ∈ D f} := by
        ext z; simp
      rw [this]
      exact (hD e).inter ih
  refine ⟨Prod.fst ⁻¹' free n ∩ {z | ∀ e ∈ fs, z ∈ D e}, ((free_open n).preimage continuous_fst).inter hfs, fun z hz => ?_, fun t ht => ⟨?_, fun e he => ?_⟩⟩
  · refine (all_smooth G c n m fs z hz.1 fun e he q cs h k => ?_).contDiffWithinAt
    have := hz.2 e he
    rw [h] at this
    rcases Set.mem_iInter.1 this k with h' | ⟨h', h0⟩
    · exact .inl h'
    · exact .inr ⟨h', fun h => h0 (congrArg co h)⟩
  · intro i j hij h
    exact apart t ht i j i.2 j.2 (fun e => hij (Fin.ext e)) (congrArg ve h)
  · have aw := away e he
    cases e with
    | drag q cs =>
      refine Set.mem_iInter.2 fun k => ?_
      rcases aw t ht k k.2 with h | ⟨h, h0⟩
      · exact .inl h
      · exact .inr ⟨h, fun h => h0 (congrArg ve h)⟩
    | _ => trivial

/-- the same forces on chain systems -/
theorem lib_agrees (G c : ℝ) (fs : List Extra) : AgreesI ⟨Lib.newtonC, fs.map (libChainOf G c)⟩ ⟨Lib.newton, fs.map (libOf G c)⟩ := by
  refine ⟨agrees_newton, ?_⟩
  simp only [List.forall₂_map_left_iff, List.forall₂_map_right_iff]
  rw [List.forall₂_same]
  intro e _
  cases e with
  | pn1 => exact agrees_pn1 G c
  | pn2p5 => exact agrees_pn2p5 G c
  | tides k tau rad => exact agrees_tidal G _
  | drag q cs => exact agrees_drag q cs

end SpaceHub.Sys
