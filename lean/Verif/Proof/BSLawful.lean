import Verif.Proof.BSAccept

/-
From the generic account of an accepted Bulirsch-Stoer step to one in terms of the variables of the system.
-/

set_option autoImplicit false

namespace SpaceHub.BS
open SpaceHub SpaceHub.Sys Spec

variable {S : Type}

/-- What the iterator relies on for the initial system `s`: `frame` = same fixed data, `same` = same state. -/
structure Lawful (O : IterSys S ℝ) (s : S) (frame same : S → S → Prop) (sync : S → Bool) : Prop where
  trans : ∀ x y z, frame x y → frame y z → frame x z
  run : ∀ h n x y, sync x = true → O.integrate h n x = .ok y → sync y = true ∧ frame x y ∧
    ∀ i, i < (O.write x).length → O.inc y i - O.inc x i = (O.write y).getD i 0 - (O.write x).getD i 0
  len : ∀ x y, frame x y → (O.write y).length = (O.write x).length
  read : ∀ x y v, frame s x → O.read x v = .ok y → frame x y ∧ sync y = sync x ∧ O.write y = v
  restore : ∀ x y, frame s x → O.read x (O.write s) = .ok y → same s y
  clear_frame : ∀ x, frame x (O.clear x)
  clear_sync : ∀ x, sync (O.clear x) = sync x
  clear_write : ∀ x, O.write (O.clear x) = O.write x
  clear_inc : ∀ x i, i < (O.write x).length → O.inc (O.clear x) i = 0
  clear_same : ∀ x, same s x → same s (O.clear x)
  collect_frame : ∀ b x, frame x (O.collect b x)
  collect_sync : ∀ b x, sync (O.collect b x) = b
  collect_write : ∀ b x, O.write (O.collect b x) = O.write x
  collect_same : same s (O.collect true s)

theorem zeroStep_add_const {D a k : Nat} (hak : a ≤ k) (hk : k ≤ D) (y : Nat → ℝ) (c : ℝ) :
    zeroStep (hSeq D) (fun m => y m - c) a k = zeroStep (hSeq D) y a k - c := by
  unfold zeroStep
  have h1 : (fun m => y m - c) = y - (fun _ => c) := rfl
  rw [h1, map_sub, Polynomial.eval_sub]
  congr 1
  have h2 : (fun _ : Nat => c) = fun i => (Polynomial.C c).eval (1 / (hSeq D i : ℝ) ^ 2) := by
    funext i; rw [Polynomial.eval_C]
  rw [h2, ← Lagrange.eq_interpolate (hSeq_injOn hk), Polynomial.eval_C]
  rw [Nat.card_Icc]
  refine lt_of_le_of_lt Polynomial.degree_C_le ?_
  exact_mod_cast (by omega : 0 < k + 1 - a)

/-- The state after a call, for a lawful system. -/
theorem iterate_lawful {O : IterSys S ℝ} {s : S} {frame same : S → S → Prop} {sync : S → Bool}
    (L : Lawful O s frame same sync) (p : Params ℝ) (h : ℝ) (c c' : State ℝ) (s' : S) (h' : ℝ)
    (e : iterate O p h c s = .ok (s', h', c')) :
    ∃ (hAcc : ℝ) (k : Nat) (start row : Nat → S) (T0 T1 : Arr ℝ), Retried p h hAcc ∧ 1 ≤ k ∧ k ≤ p.maxDepth ∧
      (∀ m, m ≤ k → same s (start m) ∧ O.write (start m) = O.write s ∧
        O.integrate hAcc (hSeq p.maxDepth m) (start m) = .ok (row m)) ∧
      (∀ i, i < (O.write s).length →
        (O.write s).getD i 0 + T0 i = zeroStep (hSeq p.maxDepth) (fun m => (O.write (row m)).getD i 0) 0 k ∧
        (O.write s).getD i 0 + T1 i = zeroStep (hSeq p.maxDepth) (fun m => (O.write (row m)).getD i 0) 1 k) ∧
      p.err (O.write s) T1 T0 ≤ 1 ∧
      (∀ i, i < (O.write s).length → (O.write s').getD i 0 = (O.write s).getD i 0 + T0 i) ∧
      frame s s' ∧ sync s' = false ∧ ∃ order ratio, h' = hAcc * p.limiter order ratio := by
  have hR : Restores O (O.write s) (fun x => frame s x ∧ sync x = true ∧ O.write x = O.write s ∧ same s x ∧
      ∀ i, i < (O.write s).length → O.inc x i = 0) := by
    refine ⟨fun x h n y z hx hi hr => ?_⟩
    obtain ⟨f1, s1, w1, _, _⟩ := hx
    obtain ⟨s2, f2, _⟩ := L.run h n x y s1 hi
    obtain ⟨f3, s3, w3⟩ := L.read _ _ _ (L.trans _ _ _ f1 f2) hr
    refine ⟨L.trans _ _ _ (L.trans _ _ _ (L.trans _ _ _ f1 f2) f3) (L.clear_frame _), ?_, ?_, ?_, ?_⟩
    · rw [L.clear_sync, s3, s2]
    · rw [L.clear_write, w3]
    · exact L.clear_same _ (L.restore _ _ (L.trans _ _ _ f1 f2) hr)
    · intro i hi; exact L.clear_inc _ _ (by rw [w3]; exact hi)
  have hf : frame s (O.clear (O.collect true s)) := L.trans _ _ _ (L.collect_frame _ _) (L.clear_frame _)
  obtain ⟨hAcc, order, ratio, hret, ⟨k, start, row, T0, T1, hk1, hkD, hrow, hT, herr, s'', hread, hs'⟩, hh'⟩ :=
    attempts_accept O p (O.write s) _ hR 100 h c (O.collect true s)
      ⟨hf, by rw [L.clear_sync, L.collect_sync], by rw [L.clear_write, L.collect_write],
        L.clear_same _ L.collect_same, fun i hi => L.clear_inc _ _ (by rw [L.collect_write]; exact hi)⟩ s' h' c' e
  have hinc : ∀ m i, m ≤ k → i < (O.write s).length → O.inc (row m) i = (O.write (row m)).getD i 0 - (O.write s).getD i 0 := by
    intro m i hm hi
    obtain ⟨⟨f1, s1, w1, _, z1⟩, i1⟩ := hrow m hm
    have := (L.run _ _ _ _ s1 i1).2.2 i (by rw [w1]; exact hi)
    rw [w1, z1 i hi] at this
    linarith
  have hk := hrow k le_rfl
  obtain ⟨f4, s4, w4⟩ := L.read _ _ _ (L.trans _ _ _ hk.1.1 (L.run _ _ _ _ hk.1.2.1 hk.2).2.1) hread
  refine ⟨hAcc, k, start, row, T0, T1, hret, hk1, hkD, fun m hm => ⟨(hrow m hm).1.2.2.2.1, (hrow m hm).1.2.2.1, (hrow m hm).2⟩,
    fun i hi => ?_, herr, fun i hi => ?_, ?_, ?_, order, ratio, hh'⟩
  · obtain ⟨t0, t1⟩ := hT i hi
    rw [t0, t1]
    rw [zeroStep_congr (fun m _ hm => hinc m i hm hi), zeroStep_add_const (by omega) hkD,
      zeroStep_congr (a := 1) (fun m _ hm => hinc m i hm hi), zeroStep_add_const hk1 hkD]
    constructor <;> ring
  · rw [hs', L.collect_write, w4, List.getD_eq_getElem _ _ (by rw [List.length_mapIdx]; exact hi), List.getElem_mapIdx,
      List.getD_eq_getElem _ _ hi]
  · rw [hs']
    exact L.trans _ _ _ (L.trans _ _ _ (L.trans _ _ _ hk.1.1 (L.run _ _ _ _ hk.1.2.1 hk.2).2.1) f4) (L.collect_frame _ _)
  · rw [hs', L.collect_sync]

/-- the systems a run can start from -/
def FreshOf (O : IterSys S ℝ) (s : S) (frame same : S → S → Prop) (sync : S → Bool) (x : S) : Prop :=
  frame s x ∧ sync x = true ∧ O.write x = O.write s ∧ same s x ∧ ∀ i, i < (O.write s).length → O.inc x i = 0

theorem fresh_restores {O : IterSys S ℝ} {s : S} {frame same : S → S → Prop} {sync : S → Bool} (L : Lawful O s frame same sync) :
    Restores O (O.write s) (FreshOf O s frame same sync) := by
  refine ⟨fun x h n y z hx hi hr => ?_⟩
  obtain ⟨f1, s1, w1, _, _⟩ := hx
  obtain ⟨s2, f2, _⟩ := L.run h n x y s1 hi
  obtain ⟨f3, s3, w3⟩ := L.read _ _ _ (L.trans _ _ _ f1 f2) hr
  refine ⟨L.trans _ _ _ (L.trans _ _ _ (L.trans _ _ _ f1 f2) f3) (L.clear_frame _), ?_, ?_, ?_, ?_⟩
  · rw [L.clear_sync, s3, s2]
  · rw [L.clear_write, w3]
  · exact L.clear_same _ (L.restore _ _ (L.trans _ _ _ f1 f2) hr)
  · intro i hi; exact L.clear_inc _ _ (by rw [w3]; exact hi)

theorem fresh_start {O : IterSys S ℝ} {s : S} {frame same : S → S → Prop} {sync : S → Bool} (L : Lawful O s frame same sync) :
    FreshOf O s frame same sync (O.clear (O.collect true s)) :=
  ⟨L.trans _ _ _ (L.collect_frame _ _) (L.clear_frame _), by rw [L.clear_sync, L.collect_sync], by rw [L.clear_write, L.collect_write],
    L.clear_same _ L.collect_same, fun i hi => L.clear_inc _ _ (by rw [L.collect_write]; exact hi)⟩

theorem fresh_inc {O : IterSys S ℝ} {s : S} {frame same : S → S → Prop} {sync : S → Bool} (L : Lawful O s frame same sync) {x y : S}
    (hx : FreshOf O s frame same sync x) {h : ℝ} {n : Nat} (e : O.integrate h n x = .ok y) {i : Nat} (hi : i < (O.write s).length) :
    O.inc y i = (O.write y).getD i 0 - (O.write s).getD i 0 := by
  obtain ⟨f1, s1, w1, _, z1⟩ := hx
  have := (L.run _ _ _ _ s1 e).2.2 i (by rw [w1]; exact hi)
  rw [w1, z1 i hi] at this
  linarith

end SpaceHub.BS
