import Verif.Props.Load
import Verif.Model.Integrator

set_option autoImplicit false

namespace SpaceHub.Sys
open SpaceHub V3 Force Core Integrator

/-- the variables of a system and its collected increments -/
@[ext] structure Flat where
  n : Nat
  time : ℝ
  x : Arr (V3 ℝ)
  v : Arr (V3 ℝ)
  a : Arr (V3 ℝ)
  om : ℝ
  be : ℝ
  inc : Arr ℝ

namespace Flat

/-- the variables as one array -/
def val (dep : Bool) (f : Flat) (k : Nat) : ℝ :=
  if k = 0 then f.time
  else if k < 1 + 3 * f.n then comp (f.x ((k - 1) / 3)) ((k - 1) % 3)
  else if k < 1 + 6 * f.n then comp (f.v ((k - (1 + 3 * f.n)) / 3)) ((k - (1 + 3 * f.n)) % 3)
  else if dep = true ∧ k < 1 + 9 * f.n then comp (f.a ((k - (1 + 6 * f.n)) / 3)) ((k - (1 + 6 * f.n)) % 3)
  else if k = omegaOffset f.n dep then f.om
  else if k = bindEOffset f.n dep then f.be
  else 0

noncomputable def mTime (h : ℝ) (f : Flat) : Flat :=
  { f with time := f.time + h, inc := f.inc.set 0 (f.inc 0 + h) }
noncomputable def mPos (u : Arr (V3 ℝ)) (h : ℝ) (f : Flat) : Flat :=
  { f with x := advance f.n f.x u h, inc := advanceScaledCoordsTo f.inc posOffset f.n u h }
noncomputable def mVel (u : Arr (V3 ℝ)) (h : ℝ) (f : Flat) : Flat :=
  { f with v := advance f.n f.v u h, inc := advanceScaledCoordsTo f.inc (velOffset f.n) f.n u h }
noncomputable def mAux (u : Arr (V3 ℝ)) (h : ℝ) (f : Flat) : Flat :=
  { f with a := advance f.n f.a u h, inc := advanceScaledCoordsTo f.inc (auxOffset f.n) f.n u h }
noncomputable def mOm (dep : Bool) (d : ℝ) (f : Flat) : Flat :=
  { f with om := f.om + d, inc := f.inc.set (omegaOffset f.n dep) (f.inc (omegaOffset f.n dep) + d) }
noncomputable def mBe (dep : Bool) (d : ℝ) (f : Flat) : Flat :=
  { f with be := f.be + d, inc := f.inc.set (bindEOffset f.n dep) (f.inc (bindEOffset f.n dep) + d) }

/-- the increments follow the variables -/
def Follows (dep : Bool) (f g : Flat) : Prop :=
  g.n = f.n ∧ ∀ k, g.inc k - f.inc k = g.val dep k - f.val dep k

theorem Follows.refl (dep : Bool) (f : Flat) : Follows dep f f := ⟨rfl, fun k => by ring⟩
theorem Follows.trans {dep : Bool} {f g h : Flat} (a : Follows dep f g) (b : Follows dep g h) : Follows dep f h :=
  ⟨b.1.trans a.1, fun k => by have := a.2 k; have := b.2 k; linarith⟩

theorem follows_time (dep : Bool) (h : ℝ) (f : Flat) : Follows dep f (f.mTime h) := by
  refine ⟨rfl, fun k => ?_⟩
  unfold mTime val
  simp only [Arr.set]
  split_ifs <;> first | ring1 | (subst_vars; ring1)

theorem follows_pos (dep : Bool) (u : Arr (V3 ℝ)) (h : ℝ) (f : Flat) : Follows dep f (f.mPos u h) := by
  refine ⟨rfl, fun k => ?_⟩
  unfold mPos val
  simp only [advanceScaled_apply, posOffset]
  by_cases h0 : k = 0
  · subst k; simp
  · rw [if_neg h0, if_neg h0]
    by_cases h1 : k < 1 + 3 * f.n
    · rw [if_pos ⟨by omega, h1⟩, if_pos h1, if_pos h1, advance_apply, if_pos (by omega), comp_add, comp_smul]; ring
    · rw [if_neg (by omega), if_neg h1, if_neg h1]; ring

theorem follows_vel (dep : Bool) (u : Arr (V3 ℝ)) (h : ℝ) (f : Flat) : Follows dep f (f.mVel u h) := by
  refine ⟨rfl, fun k => ?_⟩
  unfold mVel val
  simp only [advanceScaled_apply, velOffset]
  by_cases h0 : k = 0
  · subst k; simp
  · rw [if_neg h0, if_neg h0]
    by_cases h1 : k < 1 + 3 * f.n
    · rw [if_neg (by omega), if_pos h1, if_pos h1]; ring
    · rw [if_neg h1, if_neg h1]
      by_cases h2 : k < 1 + 6 * f.n
      · rw [if_pos ⟨by omega, by omega⟩, if_pos h2, if_pos h2, advance_apply, if_pos (by omega), comp_add, comp_smul,
          show f.n * 3 + 1 = 1 + 3 * f.n by ring]
        ring
      · rw [if_neg (by omega), if_neg h2, if_neg h2]; ring

theorem follows_aux (u : Arr (V3 ℝ)) (h : ℝ) (f : Flat) : Follows true f (f.mAux u h) := by
  refine ⟨rfl, fun k => ?_⟩
  unfold mAux val
  simp only [advanceScaled_apply, auxOffset, true_and]
  by_cases h0 : k = 0
  · subst k; simp
  · rw [if_neg h0, if_neg h0]
    by_cases h1 : k < 1 + 3 * f.n
    · rw [if_neg (by omega), if_pos h1, if_pos h1]; ring
    · rw [if_neg h1, if_neg h1]
      by_cases h2 : k < 1 + 6 * f.n
      · rw [if_neg (by omega), if_pos h2, if_pos h2]; ring
      · rw [if_neg h2, if_neg h2]
        by_cases h3 : k < 1 + 9 * f.n
        · rw [if_pos ⟨by omega, by omega⟩, if_pos h3, if_pos h3, advance_apply, if_pos (by omega), comp_add, comp_smul,
            show f.n * 6 + 1 = 1 + 6 * f.n by ring]
          ring
        · rw [if_neg (by omega), if_neg h3, if_neg h3]; ring

theorem offsets (n : Nat) (dep : Bool) :
    (if dep then 1 + 9 * n else 1 + 6 * n) ≤ omegaOffset n dep ∧ bindEOffset n dep = omegaOffset n dep + 1 := by
  cases dep <;> simp [omegaOffset, bindEOffset] <;> omega

theorem follows_om (dep : Bool) (d : ℝ) (f : Flat) : Follows dep f (f.mOm dep d) := by
  refine ⟨rfl, fun k => ?_⟩
  unfold mOm val
  simp only [Arr.set]
  obtain ⟨ho, hb⟩ := offsets f.n dep
  rw [hb]
  generalize omegaOffset f.n dep = o at *
  cases dep
  · simp only [Bool.false_eq_true, if_false, false_and] at ho ⊢
    split_ifs <;> first | ring1 | (exfalso; omega) | (subst_vars; ring1)
  · simp only [if_true, true_and] at ho ⊢
    split_ifs <;> first | ring1 | (exfalso; omega) | (subst_vars; ring1)

theorem follows_be (dep : Bool) (d : ℝ) (f : Flat) : Follows dep f (f.mBe dep d) := by
  refine ⟨rfl, fun k => ?_⟩
  unfold mBe val
  simp only [Arr.set]
  obtain ⟨ho, hb⟩ := offsets f.n dep
  rw [hb]
  generalize omegaOffset f.n dep = o at *
  cases dep
  · simp only [Bool.false_eq_true, if_false, false_and] at ho ⊢
    split_ifs <;> first | ring1 | (exfalso; omega) | (subst_vars; ring1)
  · simp only [if_true, true_and] at ho ⊢
    split_ifs <;> first | ring1 | (exfalso; omega) | (subst_vars; ring1)

end Flat

/-- the four parts of a written array -/
theorem getD_layout (n : Nat) (t : ℝ) (x v a : Arr (V3 ℝ)) (dep : Bool) (om be : ℝ) (inc : Arr ℝ) (k : Nat) :
    ([t] ++ coords n x ++ coords n v ++ (if dep then coords n a else []) ++ [om, be]).getD k 0 =
      Flat.val dep ⟨n, t, x, v, a, om, be, inc⟩ k := by
  unfold Flat.val
  simp only
  by_cases h0 : k = 0
  · subst k; simp
  rw [if_neg h0]
  have l1 : ([t] : List ℝ).length = 1 := rfl
  have lx : (coords n x).length = 3 * n := coords_length n x
  have lv : (coords n v).length = 3 * n := coords_length n v
  have la : (coords n a).length = 3 * n := coords_length n a
  by_cases h1 : k < 1 + 3 * n
  · rw [if_pos h1, List.append_assoc, List.append_assoc, List.getD_append _ _ _ _ (by simp [lx]; omega),
      List.getD_append_right _ _ _ _ (by simp; omega), coords_getD, l1, if_pos (by omega)]
  rw [if_neg h1]
  by_cases h2 : k < 1 + 6 * n
  · rw [if_pos h2, List.append_assoc, List.getD_append _ _ _ _ (by simp [lx, lv]; omega),
      List.getD_append_right _ _ _ _ (by simp [lx]; omega), coords_getD]
    rw [show ([t] ++ coords n x).length = 1 + 3 * n by simp [lx]; omega, if_pos (by omega)]
  rw [if_neg h2]
  cases dep
  · have ho : omegaOffset n false = 1 + 6 * n := by simp only [omegaOffset, Bool.toNat_false]; omega
    have hb : bindEOffset n false = 2 + 6 * n := by simp only [bindEOffset, Bool.toNat_false]; omega
    rw [ho, hb]
    simp only [Bool.false_eq_true, if_false, List.append_nil, false_and]
    rw [List.getD_append_right _ _ _ _ (by simp [lx, lv]; omega),
      show ([t] ++ coords n x ++ coords n v).length = 1 + 6 * n by simp [lx, lv]; omega]
    by_cases h3 : k = 1 + 6 * n
    · rw [if_pos h3, show k - (1 + 6 * n) = 0 by omega]; rfl
    · rw [if_neg h3]
      by_cases h4 : k = 2 + 6 * n
      · rw [if_pos h4, show k - (1 + 6 * n) = 1 by omega]; rfl
      · rw [if_neg h4, List.getD_eq_default _ _ (by simp; omega)]
  · have ho : omegaOffset n true = 1 + 9 * n := by simp only [omegaOffset, Bool.toNat_true]; omega
    have hb : bindEOffset n true = 2 + 9 * n := by simp only [bindEOffset, Bool.toNat_true]; omega
    rw [ho, hb]
    simp only [if_true, true_and]
    by_cases h3 : k < 1 + 9 * n
    · rw [if_pos h3, List.getD_append _ _ _ _ (by simp [lx, lv, la]; omega),
        List.getD_append_right _ _ _ _ (by simp [lx, lv]; omega), coords_getD]
      rw [show ([t] ++ coords n x ++ coords n v).length = 1 + 6 * n by simp [lx, lv]; omega, if_pos (by omega)]
    rw [if_neg h3, List.getD_append_right _ _ _ _ (by simp [lx, lv, la]; omega),
      show ([t] ++ coords n x ++ coords n v ++ coords n a).length = 1 + 9 * n by simp [lx, lv, la]; omega]
    by_cases h3 : k = 1 + 9 * n
    · rw [if_pos h3, show k - (1 + 9 * n) = 0 by omega]; rfl
    · rw [if_neg h3]
      by_cases h4 : k = 2 + 9 * n
      · rw [if_pos h4, show k - (1 + 9 * n) = 1 by omega]; rfl
      · rw [if_neg h4, List.getD_eq_default _ _ (by simp; omega)]

theorem getD_zeros (l : List ℝ) (k : Nat) : (l ++ [0, 0]).getD k 0 = l.getD k 0 := by
  rcases Nat.lt_or_ge k l.length with h | h
  · rw [List.getD_append _ _ _ _ h]
  · rw [List.getD_append_right _ _ _ _ h, List.getD_eq_default l _ h]
    match k - l.length with
    | 0 => rfl
    | 1 => rfl
    | _ + 2 => rfl

def Simple.flat (s : Simple) : Flat := ⟨s.P.num, s.time, s.P.pos, s.P.vel, s.aux, 0, 0, s.inc⟩
def ReguSys.flat (s : ReguSys) : Flat := ⟨s.P.num, s.time, s.P.pos, s.P.vel, s.aux, s.R.omega, s.R.bindE, s.inc⟩
def ChainSys.flat (s : ChainSys) : Flat := ⟨s.P.num, s.time, s.cpos, s.cvel, s.caux, 0, 0, s.inc⟩
def ARSys.flat (s : ARSys) : Flat := ⟨s.P.num, s.time, s.cpos, s.cvel, s.caux, s.R.omega, s.R.bindE, s.inc⟩

theorem Simple.write_getD (I : Interactions) (s : Simple) (k : Nat) : (s.write I).getD k 0 = s.flat.val I.velDep k := by
  rw [Simple.write_eq, ← getD_zeros]
  exact getD_layout s.P.num s.time s.P.pos s.P.vel s.aux I.velDep 0 0 s.inc k
theorem ReguSys.write_getD (I : Interactions) (s : ReguSys) (k : Nat) : (s.write I).getD k 0 = s.flat.val I.velDep k := by
  rw [ReguSys.write_eq]
  exact getD_layout s.P.num s.time s.P.pos s.P.vel s.aux I.velDep s.R.omega s.R.bindE s.inc k
theorem ChainSys.write_getD (I : ChainInteractions) (s : ChainSys) (k : Nat) : (s.write I).getD k 0 = s.flat.val I.velDep k := by
  rw [ChainSys.write_asSimple, Simple.write_getD, flagI_velDep]; rfl
theorem ARSys.write_getD (I : ChainInteractions) (s : ARSys) (k : Nat) : (s.write I).getD k 0 = s.flat.val I.velDep k := by
  rw [ARSys.write_asRegu, ReguSys.write_getD, flagI_velDep]; rfl

/-! ### the calls -/

theorem Simple.drift_follows (dep : Bool) (h : ℝ) (s : Simple) (hs : s.sync = true) :
    (s.drift h).sync = true ∧ Flat.Follows dep s.flat (s.drift h).flat := by
  have e : (s.drift h).flat = (s.flat.mTime h).mPos s.P.vel h ∧ (s.drift h).sync = true := by
    unfold Simple.drift Simple.syncTime Simple.syncPos
    simp only [hs, if_true]
    exact ⟨rfl, trivial⟩
  refine ⟨e.2, ?_⟩
  rw [e.1]
  exact (Flat.follows_time dep h _).trans (Flat.follows_pos dep _ h _)

theorem Simple.kick_follows (I : Interactions) (h : ℝ) (s : Simple) (hs : s.sync = true) :
    (s.kick I h).sync = true ∧ Flat.Follows I.velDep s.flat (s.kick I h).flat := by
  have real : ∀ (a : Arr (V3 ℝ)) (h : ℝ) (s : Simple), s.sync = true →
      (s.kickReal I a h).sync = true ∧ Flat.Follows I.velDep s.flat (s.kickReal I a h).flat := by
    intro a h s hs
    unfold Simple.kickReal Simple.syncVel
    simp only [hs, if_true]
    exact ⟨trivial, Flat.follows_vel I.velDep _ h s.flat⟩
  unfold Simple.kick
  cases hd : I.velDep
  · simp only [Bool.false_eq_true, if_false]
    unfold Simple.syncVel
    simp only [hs, if_true]
    exact ⟨trivial, Flat.follows_vel false _ h s.flat⟩
  · simp only [if_true]
    rw [hd] at real
    have pseu : ∀ (a : Arr (V3 ℝ)) (h : ℝ) (s : Simple), s.sync = true →
        (s.kickPseu I a h).sync = true ∧ Flat.Follows true s.flat (s.kickPseu I a h).flat := by
      intro a h s hs
      unfold Simple.kickPseu Simple.syncAux
      simp only [hs, if_true]
      exact ⟨trivial, Flat.follows_aux _ h s.flat⟩
    obtain ⟨a1, b1⟩ := real (totVelIndepAcc I s.P) (1 / 2 * h) s hs
    obtain ⟨a2, b2⟩ := pseu (totVelIndepAcc I s.P) h _ a1
    obtain ⟨a3, b3⟩ := real (totVelIndepAcc I s.P) (1 / 2 * h) _ a2
    exact ⟨a3, (b1.trans b2).trans b3⟩

theorem posPhyTime_keeps {type : ReguType} {kin h : ℝ} {r : Regu} {rt : Regu × ℝ} (e : r.posPhyTime type kin h = .ok rt) :
    rt.1.omega = r.omega ∧ rt.1.bindE = r.bindE := by
  unfold Regu.posPhyTime Regu.divStep at e
  cases type <;> simp only at e <;> (try split_ifs at e) <;> cases e <;> exact ⟨rfl, rfl⟩

theorem velPhyTime_keeps {type : ReguType} {pot h : ℝ} {r : Regu} {rt : Regu × ℝ} (e : r.velPhyTime type pot h = .ok rt) :
    rt.1.omega = r.omega ∧ rt.1.bindE = r.bindE := by
  unfold Regu.velPhyTime Regu.divStep at e
  cases type <;> simp only at e <;> (try split_ifs at e) <;> cases e <;> exact ⟨rfl, rfl⟩

theorem ReguSys.drift_follows (type : ReguType) (dep : Bool) (h : ℝ) (s s' : ReguSys) (hs : s.sync = true)
    (e : s.drift type h = .ok s') : s'.sync = true ∧ Flat.Follows dep s.flat s'.flat := by
  unfold ReguSys.drift at e
  obtain ⟨rt, e1, e2⟩ := Res.bind_eq_ok.1 e
  have hr := posPhyTime_keeps e1
  unfold ReguSys.syncTime ReguSys.syncPos at e2
  simp only [hs, if_true] at e2
  have e2 := (Res.ok.inj e2).symm
  have : s'.flat = (s.flat.mTime rt.2).mPos s.P.vel rt.2 := by
    rw [e2]
    unfold ReguSys.flat Flat.mTime Flat.mPos
    simp only [hr]
  refine ⟨by rw [e2], ?_⟩
  rw [this]
  exact (Flat.follows_time dep _ _).trans (Flat.follows_pos dep _ _ _)

theorem ReguSys.omega_follows (type : ReguType) (I : Interactions) (vel d : Arr (V3 ℝ)) (t : ℝ) (s : ReguSys)
    (hs : s.sync = true) : (s.advanceOmega type I vel d t).sync = true ∧
      Flat.Follows I.velDep s.flat (s.advanceOmega type I vel d t).flat := by
  unfold ReguSys.advanceOmega ReguSys.syncOmega
  simp only [hs, if_true]
  exact ⟨trivial, Flat.follows_om I.velDep _ s.flat⟩

theorem ReguSys.bindE_follows (type : ReguType) (I : Interactions) (vel d : Arr (V3 ℝ)) (t : ℝ) (s : ReguSys)
    (hs : s.sync = true) : (s.advanceBindE type I vel d t).sync = true ∧
      Flat.Follows I.velDep s.flat (s.advanceBindE type I vel d t).flat := by
  unfold ReguSys.advanceBindE ReguSys.syncBindE
  simp only [hs, if_true]
  exact ⟨trivial, Flat.follows_be I.velDep _ s.flat⟩

theorem ReguSys.bindE_if_follows (type : ReguType) (I : Interactions) (vel d : Arr (V3 ℝ)) (t : ℝ) (s : ReguSys) (b : Bool)
    (hs : s.sync = true) : (if b = true then s.advanceBindE type I vel d t else s).sync = true ∧
      Flat.Follows I.velDep s.flat (if b = true then s.advanceBindE type I vel d t else s).flat := by
  split_ifs
  · exact ReguSys.bindE_follows type I vel d t s hs
  · exact ⟨hs, Flat.Follows.refl _ _⟩

theorem ReguSys.kick_follows (G : ℝ) (type : ReguType) (I : Interactions) (h : ℝ) (s s' : ReguSys) (hs : s.sync = true)
    (e : s.kick G type I h = .ok s') : s'.sync = true ∧ Flat.Follows I.velDep s.flat s'.flat := by
  unfold ReguSys.kick at e
  obtain ⟨rt, e1, e2⟩ := Res.bind_eq_ok.1 e
  have hr := velPhyTime_keeps e1
  have h0 : ({ s with R := rt.1 } : ReguSys).flat = s.flat := by unfold ReguSys.flat; simp only [hr]
  have hs0 : ({ s with R := rt.1 } : ReguSys).sync = true := hs
  rw [← h0]
  dsimp only at e2
  generalize ({ s with R := rt.1 } : ReguSys) = s0 at *
  generalize (if I.velIndep = true then arrayAdd s.P.num (I.velIndepAcc s.P) (I.newtonianAcc s.P) else I.newtonianAcc s.P) = tot at *
  generalize I.newtonianAcc s.P = newt at *
  generalize I.velIndepAcc s.P = ext at *
  generalize rt.2 = t at *
  have real : ∀ (t : ℝ) (s : ReguSys), s.sync = true →
      (s.kickReal I tot t).sync = true ∧ Flat.Follows I.velDep s.flat (s.kickReal I tot t).flat := by
    intro t s hs
    unfold ReguSys.kickReal ReguSys.syncVel
    simp only [hs, if_true]
    exact ⟨trivial, Flat.follows_vel I.velDep _ t s.flat⟩
  rcases (Bool.eq_false_or_eq_true I.velDep).symm with hd | hd
  · rw [hd] at e2
    simp only [Bool.false_eq_true, if_false] at e2
    obtain ⟨a1, b1⟩ := s0.omega_follows type I s.P.vel newt (1 / 2 * t) hs0
    generalize s0.advanceOmega type I s.P.vel newt (1 / 2 * t) = s1 at *
    obtain ⟨a2, b2⟩ := s1.bindE_if_follows type I s1.P.vel ext (1 / 2 * t) I.velIndep a1
    generalize (if I.velIndep = true then s1.advanceBindE type I s1.P.vel ext (1 / 2 * t) else s1) = s2 at *
    have hv : ∀ a : Arr (V3 ℝ), (ReguSys.syncVel { s2 with P := { s2.P with vel := advance s2.P.num s2.P.vel a t } } a t).sync = true ∧
        Flat.Follows I.velDep s2.flat (ReguSys.syncVel { s2 with P := { s2.P with vel := advance s2.P.num s2.P.vel a t } } a t).flat := by
      intro a
      unfold ReguSys.syncVel
      simp only [a2, if_true]
      exact ⟨trivial, Flat.follows_vel I.velDep _ t s2.flat⟩
    obtain ⟨a3, b3⟩ := hv tot
    generalize ReguSys.syncVel { s2 with P := { s2.P with vel := advance s2.P.num s2.P.vel tot t } } tot t = s3 at *
    obtain ⟨a4, b4⟩ := s3.bindE_if_follows type I s3.P.vel ext (1 / 2 * t) I.velIndep a3
    generalize (if I.velIndep = true then s3.advanceBindE type I s3.P.vel ext (1 / 2 * t) else s3) = s4 at *
    obtain ⟨a5, b5⟩ := s4.omega_follows type I s4.P.vel newt (1 / 2 * t) a4
    rw [Res.ok.inj e2] at a5 b5
    exact ⟨a5, (((b1.trans b2).trans b3).trans b4).trans b5⟩
  · have pseu : ∀ (s : ReguSys), s.sync = true → (s.kickPseu type I newt ext tot t).sync = true ∧
        Flat.Follows I.velDep s.flat (s.kickPseu type I newt ext tot t).flat := by
      intro s hs
      have haux : ∀ a : Arr (V3 ℝ), (ReguSys.syncAux { s with aux := advance s.P.num s.aux a t } a t).sync = true ∧
          Flat.Follows I.velDep s.flat (ReguSys.syncAux { s with aux := advance s.P.num s.aux a t } a t).flat := by
        intro a
        unfold ReguSys.syncAux
        simp only [hs, if_true]
        rw [hd]
        exact ⟨trivial, Flat.follows_aux _ t s.flat⟩
      unfold ReguSys.kickPseu
      dsimp only
      obtain ⟨a1, b1⟩ := haux (arrayAdd s.P.num tot (I.velDepAcc s.P))
      generalize ReguSys.syncAux { s with aux := advance s.P.num s.aux (arrayAdd s.P.num tot (I.velDepAcc s.P)) t }
        (arrayAdd s.P.num tot (I.velDepAcc s.P)) t = s1 at *
      obtain ⟨a2, b2⟩ := s1.omega_follows type I s1.P.vel newt t a1
      generalize s1.advanceOmega type I s1.P.vel newt t = s2 at *
      split_ifs
      · obtain ⟨a3, b3⟩ := s2.bindE_follows type I s2.P.vel (arrayAdd s2.P.num ext (I.velDepAcc s.P)) t a2
        exact ⟨a3, (b1.trans b2).trans b3⟩
      · obtain ⟨a3, b3⟩ := s2.bindE_follows type I s2.P.vel (I.velDepAcc s.P) t a2
        exact ⟨a3, (b1.trans b2).trans b3⟩
    rw [hd] at e2
    simp only [if_true] at e2
    obtain ⟨a1, b1⟩ := real (1 / 2 * t) s0 hs0
    obtain ⟨a2, b2⟩ := pseu _ a1
    obtain ⟨a3, b3⟩ := real (1 / 2 * t) _ a2
    rw [Res.ok.inj e2] at a3 b3
    exact ⟨a3, (b1.trans b2).trans b3⟩

theorem chainAdvance_snd {n : Nat} {idx : Arr Nat} {var cvar cinc : Arr (V3 ℝ)} {h : ℝ} {r : Arr (V3 ℝ) × Arr (V3 ℝ)}
    (e : ChainSys.chainAdvance n idx var cvar cinc h = .ok r) : r.2 = advance n cvar cinc h := by
  unfold ChainSys.chainAdvance at e
  obtain ⟨x, _, e2⟩ := Res.bind_eq_ok.1 e
  rw [← Res.ok.inj e2]

theorem ChainSys.drift_follows (dep : Bool) (h : ℝ) (s s' : ChainSys) (hs : s.sync = true) (e : s.drift h = .ok s') :
    s'.sync = true ∧ Flat.Follows dep s.flat s'.flat := by
  unfold ChainSys.drift at e
  obtain ⟨r, e1, e2⟩ := Res.bind_eq_ok.1 e
  unfold ChainSys.syncTime ChainSys.syncPos at e2
  simp only [hs, if_true] at e2
  have e2 := (Res.ok.inj e2).symm
  have hr := chainAdvance_snd e1
  have : s'.flat = (s.flat.mTime h).mPos s.cvel h := by
    rw [e2]
    unfold ChainSys.flat Flat.mTime Flat.mPos
    simp only [hr]
  refine ⟨by rw [e2], ?_⟩
  rw [this]
  exact (Flat.follows_time dep _ _).trans (Flat.follows_pos dep _ _ _)

theorem ChainSys.kickReal_follows (I : ChainInteractions) (a : Arr (V3 ℝ)) (h : ℝ) (s s' : ChainSys) (hs : s.sync = true)
    (e : s.kickReal I a h = .ok s') : s'.sync = true ∧ Flat.Follows I.velDep s.flat s'.flat := by
  unfold ChainSys.kickReal at e
  obtain ⟨_, _, e⟩ := Res.bind_eq_ok.1 e
  obtain ⟨cacc, _, e⟩ := Res.bind_eq_ok.1 e
  obtain ⟨r, e1, e2⟩ := Res.bind_eq_ok.1 e
  unfold ChainSys.syncVel at e2
  simp only [hs, if_true] at e2
  have e2 := (Res.ok.inj e2).symm
  have hr := chainAdvance_snd e1
  have : s'.flat = s.flat.mVel cacc h := by
    rw [e2]
    unfold ChainSys.flat Flat.mVel
    simp only [hr]
  refine ⟨by rw [e2], ?_⟩
  rw [this]
  exact Flat.follows_vel _ _ _ _

theorem ChainSys.kickPseu_follows (I : ChainInteractions) (hd : I.velDep = true) (a : Arr (V3 ℝ)) (h : ℝ) (s s' : ChainSys)
    (hs : s.sync = true) (e : s.kickPseu I a h = .ok s') : s'.sync = true ∧ Flat.Follows I.velDep s.flat s'.flat := by
  unfold ChainSys.kickPseu at e
  obtain ⟨_, _, e⟩ := Res.bind_eq_ok.1 e
  obtain ⟨cacc, _, e⟩ := Res.bind_eq_ok.1 e
  obtain ⟨r, e1, e2⟩ := Res.bind_eq_ok.1 e
  unfold ChainSys.syncAux at e2
  simp only [hs, if_true] at e2
  have e2 := (Res.ok.inj e2).symm
  have hr := chainAdvance_snd e1
  have : s'.flat = s.flat.mAux cacc h := by
    rw [e2]
    unfold ChainSys.flat Flat.mAux
    simp only [hr]
  refine ⟨by rw [e2], ?_⟩
  rw [this, hd]
  exact Flat.follows_aux _ _ _

theorem ChainSys.kick_follows (I : ChainInteractions) (h : ℝ) (s s' : ChainSys) (hs : s.sync = true)
    (e : s.kick I h = .ok s') : s'.sync = true ∧ Flat.Follows I.velDep s.flat s'.flat := by
  unfold ChainSys.kick at e
  split_ifs at e with hd
  · obtain ⟨a, _, e⟩ := Res.bind_eq_ok.1 e
    obtain ⟨s1, e1, e⟩ := Res.bind_eq_ok.1 e
    obtain ⟨s2, e2, e3⟩ := Res.bind_eq_ok.1 e
    obtain ⟨a1, b1⟩ := s.kickReal_follows I a _ s1 hs e1
    obtain ⟨a2, b2⟩ := s1.kickPseu_follows I hd a _ s2 a1 e2
    obtain ⟨a3, b3⟩ := s2.kickReal_follows I a _ s' a2 e3
    exact ⟨a3, (b1.trans b2).trans b3⟩
  · obtain ⟨_, _, e⟩ := Res.bind_eq_ok.1 e
    obtain ⟨cacc, _, e⟩ := Res.bind_eq_ok.1 e
    obtain ⟨r, e1, e2⟩ := Res.bind_eq_ok.1 e
    unfold ChainSys.syncVel at e2
    simp only [hs, if_true] at e2
    have e2 := (Res.ok.inj e2).symm
    have hr := chainAdvance_snd e1
    have : s'.flat = s.flat.mVel cacc h := by
      rw [e2]
      unfold ChainSys.flat Flat.mVel
      simp only [hr]
    refine ⟨by rw [e2], ?_⟩
    rw [this]
    exact Flat.follows_vel _ _ _ _

theorem ARSys.drift_follows (type : ReguType) (dep : Bool) (h : ℝ) (s s' : ARSys) (hs : s.sync = true)
    (e : s.drift type h = .ok s') : s'.sync = true ∧ Flat.Follows dep s.flat s'.flat := by
  unfold ARSys.drift at e
  obtain ⟨rt, e0, e⟩ := Res.bind_eq_ok.1 e
  have hk := posPhyTime_keeps e0
  obtain ⟨r, e1, e2⟩ := Res.bind_eq_ok.1 e
  unfold ARSys.syncTime ARSys.syncPos at e2
  simp only [hs, if_true] at e2
  have e2 := (Res.ok.inj e2).symm
  have hr := chainAdvance_snd e1
  have : s'.flat = (s.flat.mTime rt.2).mPos s.cvel rt.2 := by
    rw [e2]
    unfold ARSys.flat Flat.mTime Flat.mPos
    simp only [hr, hk]
  refine ⟨by rw [e2], ?_⟩
  rw [this]
  exact (Flat.follows_time dep _ _).trans (Flat.follows_pos dep _ _ _)

theorem ARSys.omega_follows (type : ReguType) (I : ChainInteractions) (vel d : Arr (V3 ℝ)) (t : ℝ) (s : ARSys)
    (hs : s.sync = true) : (s.advanceOmega type I vel d t).sync = true ∧
      Flat.Follows I.velDep s.flat (s.advanceOmega type I vel d t).flat := by
  unfold ARSys.advanceOmega ARSys.syncOmega
  simp only [hs, if_true]
  exact ⟨trivial, Flat.follows_om I.velDep _ s.flat⟩

theorem ARSys.bindE_follows (type : ReguType) (I : ChainInteractions) (vel d : Arr (V3 ℝ)) (t : ℝ) (s : ARSys)
    (hs : s.sync = true) : (s.advanceBindE type I vel d t).sync = true ∧
      Flat.Follows I.velDep s.flat (s.advanceBindE type I vel d t).flat := by
  unfold ARSys.advanceBindE ARSys.syncBindE
  simp only [hs, if_true]
  exact ⟨trivial, Flat.follows_be I.velDep _ s.flat⟩

theorem ARSys.bindE_if_follows (type : ReguType) (I : ChainInteractions) (vel d : Arr (V3 ℝ)) (t : ℝ) (s : ARSys) (b : Bool)
    (hs : s.sync = true) : (if b = true then s.advanceBindE type I vel d t else s).sync = true ∧
      Flat.Follows I.velDep s.flat (if b = true then s.advanceBindE type I vel d t else s).flat := by
  split_ifs
  · exact ARSys.bindE_follows type I vel d t s hs
  · exact ⟨hs, Flat.Follows.refl _ _⟩

theorem ARSys.kickReal_follows (I : ChainInteractions) (a : Arr (V3 ℝ)) (h : ℝ) (s s' : ARSys) (hs : s.sync = true)
    (e : s.kickReal I a h = .ok s') : s'.sync = true ∧ Flat.Follows I.velDep s.flat s'.flat := by
  unfold ARSys.kickReal at e
  obtain ⟨_, _, e⟩ := Res.bind_eq_ok.1 e
  obtain ⟨cacc, _, e⟩ := Res.bind_eq_ok.1 e
  obtain ⟨r, e1, e2⟩ := Res.bind_eq_ok.1 e
  unfold ARSys.syncVel at e2
  simp only [hs, if_true] at e2
  have e2 := (Res.ok.inj e2).symm
  have hr := chainAdvance_snd e1
  have : s'.flat = s.flat.mVel cacc h := by
    rw [e2]
    unfold ARSys.flat Flat.mVel
    simp only [hr]
  refine ⟨by rw [e2], ?_⟩
  rw [this]
  exact Flat.follows_vel _ _ _ _

theorem ARSys.kickPseu_follows (type : ReguType) (I : ChainInteractions) (hd : I.velDep = true) (newt ext a : Arr (V3 ℝ))
    (h : ℝ) (s s' : ARSys) (hs : s.sync = true) (e : s.kickPseu type I newt ext a h = .ok s') :
    s'.sync = true ∧ Flat.Follows I.velDep s.flat s'.flat := by
  unfold ARSys.kickPseu at e
  obtain ⟨vd, _, e⟩ := Res.bind_eq_ok.1 e
  obtain ⟨cacc, _, e⟩ := Res.bind_eq_ok.1 e
  obtain ⟨r, e1, e2⟩ := Res.bind_eq_ok.1 e
  have hr := chainAdvance_snd e1
  dsimp only at e2
  have haux : (ARSys.syncAux { s with aux := r.1, caux := r.2 } cacc h).sync = true ∧
      Flat.Follows I.velDep s.flat (ARSys.syncAux { s with aux := r.1, caux := r.2 } cacc h).flat := by
    have : (ARSys.syncAux { s with aux := r.1, caux := r.2 } cacc h).flat = s.flat.mAux cacc h ∧
        (ARSys.syncAux { s with aux := r.1, caux := r.2 } cacc h).sync = true := by
      unfold ARSys.syncAux
      simp only [hs, if_true]
      unfold ARSys.flat Flat.mAux
      simp only [hr, and_self]
    rw [this.1, hd]
    exact ⟨this.2, Flat.follows_aux _ _ _⟩
  obtain ⟨a1, b1⟩ := haux
  generalize ARSys.syncAux { s with aux := r.1, caux := r.2 } cacc h = s1 at *
  obtain ⟨a2, b2⟩ := s1.omega_follows type I s1.P.vel newt h a1
  generalize s1.advanceOmega type I s1.P.vel newt h = s2 at *
  split_ifs at e2
  · obtain ⟨a3, b3⟩ := s2.bindE_follows type I s2.P.vel (arrayAdd s2.P.num ext vd) h a2
    rw [Res.ok.inj e2] at a3 b3
    exact ⟨a3, (b1.trans b2).trans b3⟩
  · obtain ⟨a3, b3⟩ := s2.bindE_follows type I s2.P.vel vd h a2
    rw [Res.ok.inj e2] at a3 b3
    exact ⟨a3, (b1.trans b2).trans b3⟩

theorem ARSys.kick_follows (G : ℝ) (type : ReguType) (I : ChainInteractions) (h : ℝ) (s s' : ARSys) (hs : s.sync = true)
    (e : s.kick G type I h = .ok s') : s'.sync = true ∧ Flat.Follows I.velDep s.flat s'.flat := by
  unfold ARSys.kick at e
  obtain ⟨pot, _, e⟩ := Res.bind_eq_ok.1 e
  obtain ⟨rt, e0, e⟩ := Res.bind_eq_ok.1 e
  have hk := velPhyTime_keeps e0
  obtain ⟨newt, _, e⟩ := Res.bind_eq_ok.1 e
  obtain ⟨ext, _, e⟩ := Res.bind_eq_ok.1 e
  have h0 : ({ s with R := rt.1 } : ARSys).flat = s.flat := by unfold ARSys.flat; simp only [hk]
  have hs0 : ({ s with R := rt.1 } : ARSys).sync = true := hs
  rw [← h0]
  dsimp only at e
  generalize (if I.velIndep = true then arrayAdd s.P.num ext newt else newt) = tot at *
  by_cases hd : I.velDep = true
  · rw [if_pos hd] at e
    generalize ({ s with R := rt.1 } : ARSys) = s0 at *
    obtain ⟨s1, e1, e⟩ := Res.bind_eq_ok.1 e
    obtain ⟨s2, e2, e3⟩ := Res.bind_eq_ok.1 e
    obtain ⟨a1, b1⟩ := s0.kickReal_follows I tot _ s1 hs0 e1
    obtain ⟨a2, b2⟩ := s1.kickPseu_follows type I hd newt ext tot _ s2 a1 e2
    obtain ⟨a3, b3⟩ := s2.kickReal_follows I tot _ s' a2 e3
    exact ⟨a3, (b1.trans b2).trans b3⟩
  · rw [if_neg hd] at e
    obtain ⟨cacc, _, e⟩ := Res.bind_eq_ok.1 e
    generalize ({ s with R := rt.1 } : ARSys) = s0 at *
    generalize rt.2 = t at *
    obtain ⟨a1, b1⟩ := s0.omega_follows type I s.P.vel newt (1 / 2 * t) hs0
    generalize s0.advanceOmega type I s.P.vel newt (1 / 2 * t) = s1 at *
    obtain ⟨a2, b2⟩ := s1.bindE_if_follows type I s1.P.vel ext (1 / 2 * t) I.velIndep a1
    generalize (if I.velIndep = true then s1.advanceBindE type I s1.P.vel ext (1 / 2 * t) else s1) = s2 at *
    obtain ⟨r, er, e⟩ := Res.bind_eq_ok.1 e
    have hr := chainAdvance_snd er
    have hv : (ARSys.syncVel { s2 with P := { s2.P with vel := r.1 }, cvel := r.2 } cacc t).sync = true ∧
        Flat.Follows I.velDep s2.flat (ARSys.syncVel { s2 with P := { s2.P with vel := r.1 }, cvel := r.2 } cacc t).flat := by
      have : (ARSys.syncVel { s2 with P := { s2.P with vel := r.1 }, cvel := r.2 } cacc t).flat = s2.flat.mVel cacc t ∧
          (ARSys.syncVel { s2 with P := { s2.P with vel := r.1 }, cvel := r.2 } cacc t).sync = true := by
        unfold ARSys.syncVel
        simp only [a2, if_true]
        unfold ARSys.flat Flat.mVel
        simp only [hr, and_self]
      rw [this.1]
      exact ⟨this.2, Flat.follows_vel _ _ _ _⟩
    obtain ⟨a3, b3⟩ := hv
    generalize ARSys.syncVel { s2 with P := { s2.P with vel := r.1 }, cvel := r.2 } cacc t = s3 at *
    obtain ⟨a4, b4⟩ := s3.bindE_if_follows type I s3.P.vel ext (1 / 2 * t) I.velIndep a3
    generalize (if I.velIndep = true then s3.advanceBindE type I s3.P.vel ext (1 / 2 * t) else s3) = s4 at *
    obtain ⟨a5, b5⟩ := s4.omega_follows type I s4.P.vel newt (1 / 2 * t) a4
    rw [Res.ok.inj e] at a5 b5
    exact ⟨a5, (((b1.trans b2).trans b3).trans b4).trans b5⟩

/-- any sequence of calls -/
theorem run_follows {S : Type} (o : Ops S) (dep : Bool) (sync : S → Bool) (flat : S → Flat)
    (H : ∀ op s s', sync s = true → o.apply op s = .ok s' → sync s' = true ∧ Flat.Follows dep (flat s) (flat s'))
    (ops : List Op) (s s' : S) (hs : sync s = true) (e : o.run ops s = .ok s') :
    sync s' = true ∧ Flat.Follows dep (flat s) (flat s') := by
  induction ops generalizing s with
  | nil => cases e; exact ⟨hs, Flat.Follows.refl _ _⟩
  | cons op ops ih =>
    obtain ⟨s1, e1, e2⟩ := Res.bind_eq_ok.1 e
    obtain ⟨a1, b1⟩ := H op s s1 hs e1
    obtain ⟨a2, b2⟩ := ih s1 a1 e2
    exact ⟨a2, b1.trans b2⟩

end SpaceHub.Sys
