import Verif.Spec.Cluster
import Verif.Proof.Orbit
import Mathlib.Algebra.BigOperators.Fin

set_option autoImplicit false

namespace SpaceHub.Manip
open SpaceHub Orbit Spec.Cluster Spec.Orbit

theorem foldl_sum {α M : Type} [AddCommMonoid M] (f : α → M) (l : List α) (a : M) : l.foldl (fun s p => s + f p) a = a + (l.map f).sum := by
  induction l generalizing a with
  | nil => simp
  | cons x l ih => simp [ih, add_assoc]

theorem foldr_sum {α M : Type} [AddCommMonoid M] (f : α → M) (l : List α) (a : M) : l.foldr (fun p s => f p + s) a = (l.map f).sum + a := by
  induction l with
  | nil => simp
  | cons x l ih => simp [ih, add_assoc]

theorem foldl_pair (f : Ptc → V3 ℝ) (l : List Ptc) (a : ℝ) (b : V3 ℝ) :
    l.foldl (fun (s : ℝ × V3 ℝ) p => (s.1 + p.mass, s.2 + f p)) (a, b) = (a + totalMass l, b + (l.map f).sum) := by
  induction l generalizing a b with
  | nil => simp [totalMass]
  | cons x l ih => simp [ih, totalMass, add_assoc]

theorem mTot_eq (c : Cluster) : mTot c = totalMass (members c) := by
  cases c with
  | one p => simp [mTot, members, totalMass]
  | many l => simp [mTot, members, totalMass, foldl_sum]

theorem comP_many (l : List Ptc) : comP (.many l) = vdiv ((l.map fun p => p.mass • p.pos).sum) (totalMass l) := by
  simp only [comP]
  rw [foldl_pair]
  simp

theorem comV_many (l : List Ptc) : comV (.many l) = vdiv ((l.map fun p => p.mass • p.vel).sum) (totalMass l) := by
  simp only [comV]
  rw [foldl_pair]
  simp

/-- The sum of the moments about a point. -/
theorem sum_moments (f : Ptc → V3 ℝ) (X : V3 ℝ) (l : List Ptc) :
    (l.map fun p => p.mass • (f p - X)).sum = (l.map fun p => p.mass • f p).sum - totalMass l • X := by
  induction l with
  | nil => ext <;> simp [totalMass]
  | cons p l ih =>
    simp only [List.map_cons, List.sum_cons, ih, totalMass]
    ext <;> simp <;> ring

theorem div_of_smul {m : ℝ} (hm : m ≠ 0) {S X : V3 ℝ} : S / m = X ↔ S - m • X = 0 := by
  constructor
  · intro h
    rw [← h]
    ext <;> simp <;> field_simp <;> ring
  · intro h
    have hS : S = m • X := sub_eq_zero.1 h
    rw [hS]
    ext <;> simp <;> field_simp

theorem comP_ok {c : Cluster} (hm : totalMass (members c) ≠ 0) : ∃ X, comP c = .ok X ∧ IsCentre (members c) X := by
  cases c with
  | one p => exact ⟨p.pos, rfl, by simp [IsCentre, members]⟩
  | many l =>
    refine ⟨_, by rw [comP_many, vdiv, if_neg (show totalMass l ≠ 0 from hm)], ?_⟩
    unfold IsCentre
    rw [sum_moments]
    exact (div_of_smul (show totalMass l ≠ 0 from hm)).1 rfl

theorem comV_ok {c : Cluster} (hm : totalMass (members c) ≠ 0) : ∃ X, comV c = .ok X ∧ IsCentreVel (members c) X := by
  cases c with
  | one p => exact ⟨p.vel, rfl, by simp [IsCentreVel, members]⟩
  | many l =>
    refine ⟨_, by rw [comV_many, vdiv, if_neg (show totalMass l ≠ 0 from hm)], ?_⟩
    unfold IsCentreVel
    rw [sum_moments]
    exact (div_of_smul (show totalMass l ≠ 0 from hm)).1 rfl

theorem centre_unique {l : List Ptc} (hm : totalMass l ≠ 0) {X Y : V3 ℝ} (hX : IsCentre l X) (hY : IsCentre l Y) : X = Y := by
  unfold IsCentre at hX hY
  rw [sum_moments] at hX hY
  exact ((div_of_smul hm).2 hX).symm.trans ((div_of_smul hm).2 hY)

theorem centreVel_unique {l : List Ptc} (hm : totalMass l ≠ 0) {X Y : V3 ℝ} (hX : IsCentreVel l X) (hY : IsCentreVel l Y) : X = Y := by
  unfold IsCentreVel at hX hY
  rw [sum_moments] at hX hY
  exact ((div_of_smul hm).2 hX).symm.trans ((div_of_smul hm).2 hY)

theorem Displaced.mass {a b : V3 ℝ} {l l' : List Ptc} (h : Displaced a b l l') : totalMass l' = totalMass l := by
  rw [h]; simp [totalMass, Function.comp_def]

theorem Displaced.centre {a b : V3 ℝ} {l l' : List Ptc} (h : Displaced a b l l') {X : V3 ℝ} (hX : IsCentre l X) : IsCentre l' (X + a) := by
  unfold IsCentre at *
  rw [h, List.map_map]
  rw [← hX]
  congr 1
  apply List.map_congr_left
  intro p _
  ext <;> simp

theorem Displaced.centreVel {a b : V3 ℝ} {l l' : List Ptc} (h : Displaced a b l l') {V : V3 ℝ} (hV : IsCentreVel l V) : IsCentreVel l' (V + b) := by
  unfold IsCentreVel at *
  rw [h, List.map_map]
  rw [← hV]
  congr 1
  apply List.map_congr_left
  intro p _
  ext <;> simp

/-! ### Energies -/

theorem dot_self_eq (v : V3 ℝ) : v.dot v = len v ^ 2 := (len_sq v).symm

theorem eK_eq (c : Cluster) : eK c = kineticIn 0 (members c) := by
  cases c with
  | one p =>
    simp only [eK, kineticIn, members, dot_self_eq, List.map_cons, List.map_nil, List.sum_cons, List.sum_nil, sub_zero]
    norm_num
  | many l =>
    simp only [eK, foldl_sum, zero_add, kineticIn, members, dot_self_eq, sub_zero]
    rw [show (0.5:ℝ) = 1 / 2 by norm_num, ← List.sum_map_mul_left]
    congr 1
    apply List.map_congr_left
    intro p _
    ring

/-- The potential energy of the pairs with a given particle first. -/
theorem potential_cons (p : Ptc) (l : List Ptc) :
    potential (p :: l) = potential l - (l.map fun q => p.mass * q.mass / len (p.pos - q.pos)).sum := by
  unfold potential
  have h := Fin.sum_univ_fun_getElem l (fun q => p.mass * q.mass / len (p.pos - q.pos))
  simp only [List.length_cons, Fin.sum_univ_succ, Fin.getElem_fin, Fin.val_zero, List.getElem_cons_zero, if_false, zero_add,
    Fin.succ_pos, if_true, Fin.val_succ, List.getElem_cons_succ, Fin.not_lt_zero, Fin.succ_lt_succ_iff]
  rw [h]
  ring

theorem dist_eq (a b : V3 ℝ) : dist a b = len (a - b) := norm_eq_len _

theorem fold_pot (p : Ptc) (l : List Ptc) (acc : ℝ) (h : ∀ q ∈ l, p.pos ≠ q.pos) :
    l.foldlM (fun (acc : ℝ) q => (do
      let t ← fdiv (G * p.mass * q.mass) (dist p.pos q.pos)
      Res.ok (acc - t) : Res ℝ)) acc = .ok (acc - (l.map fun q => p.mass * q.mass / len (p.pos - q.pos)).sum) := by
  induction l generalizing acc with
  | nil => simp [List.foldlM_nil]; rfl
  | cons q l ih =>
    have hq : dist p.pos q.pos ≠ 0 := by
      rw [dist_eq]
      intro h0
      exact h q (by simp) (sub_eq_zero.1 (len_eq_zero.1 h0))
    rw [List.foldlM_cons]
    have hf : fdiv (G * p.mass * q.mass) (dist p.pos q.pos) = .ok (G * p.mass * q.mass / dist p.pos q.pos) := by rw [fdiv, if_neg hq]
    rw [hf]
    simp only [Sys.Res.ok_bind]
    rw [ih _ fun q' hq' => h q' (by simp [hq'])]
    congr 1
    simp only [List.map_cons, List.sum_cons, G, dist_eq]
    ring

theorem ePLoop_eq (l : List Ptc) (acc : ℝ) (h : Apart l) : ePLoop l acc = .ok (acc + potential l) := by
  induction l generalizing acc with
  | nil => simp [ePLoop, potential]
  | cons p l ih =>
    obtain ⟨h1, h2⟩ := List.pairwise_cons.1 h
    unfold ePLoop
    rw [fold_pot p l acc h1]
    simp only [Sys.Res.ok_bind]
    rw [ih _ h2, potential_cons]
    congr 1; ring

theorem eP_eq (c : Cluster) (h : Apart (members c)) : eP c = .ok (potential (members c)) := by
  cases c with
  | one p =>
    rw [members, potential_cons]
    simp [eP, potential]
  | many l => rw [eP, ePLoop_eq l 0 h, zero_add]; rfl

/-- König's theorem. -/
theorem koenig {l : List Ptc} {V : V3 ℝ} (hV : IsCentreVel l V) (W : V3 ℝ) :
    kineticIn W l = kineticIn V l + 1 / 2 * totalMass l * len (V - W) ^ 2 := by
  have key : ∀ l : List Ptc, kineticIn W l = kineticIn V l + 1 / 2 * totalMass l * len (V - W) ^ 2 +
      ((l.map fun p : Ptc => p.mass • (p.vel - V)).sum).dot (V - W) := by
    intro l
    induction l with
    | nil => simp [kineticIn, totalMass, V3.dot]
    | cons p l ih =>
      simp only [kineticIn, totalMass, List.map_cons, List.sum_cons] at ih ⊢
      rw [ih]
      simp only [len_sq, V3.dot, V3.add_x, V3.add_y, V3.add_z, V3.smul_x, V3.smul_y, V3.smul_z, V3.sub_x, V3.sub_y, V3.sub_z]
      ring
  rw [key l, hV]
  simp [V3.dot]

theorem potential_displaced {a b : V3 ℝ} {l l' : List Ptc} (h : Displaced a b l l') : potential l' = potential l := by
  rw [h]
  clear h
  induction l with
  | nil => rfl
  | cons p l ih =>
    rw [List.map_cons, potential_cons, potential_cons, ih, List.map_map]
    congr 2
    apply List.map_congr_left
    intro q _
    simp

theorem Displaced.kinetic {a b : V3 ℝ} {l l' : List Ptc} (h : Displaced a b l l') (V : V3 ℝ) : kineticIn (V + b) l' = kineticIn V l := by
  rw [h]
  unfold kineticIn
  rw [List.map_map]
  congr 1
  apply List.map_congr_left
  intro p _
  simp

theorem Displaced.apart {a b : V3 ℝ} {l l' : List Ptc} (h : Displaced a b l l') (ha : Apart l) : Apart l' := by
  rw [h]
  unfold Apart
  rw [List.pairwise_map]
  exact ha.imp fun hne => by simpa using hne

/-! ### Size -/

theorem inner_size (p : Ptc) (l : List Ptc) (m : ℝ) :
    let r := l.foldl (fun m q => if dist p.pos q.pos > m then dist p.pos q.pos else m) m
    m ≤ r ∧ (∀ q ∈ l, len (p.pos - q.pos) ≤ r) ∧ (r = m ∨ ∃ q ∈ l, r = len (p.pos - q.pos)) := by
  induction l generalizing m with
  | nil => simp
  | cons q l ih =>
    obtain ⟨a, b, c⟩ := ih (if dist p.pos q.pos > m then dist p.pos q.pos else m)
    simp only [List.foldl_cons]
    rw [dist_eq] at a c ⊢
    by_cases hc : len (p.pos - q.pos) > m
    · rw [if_pos hc] at a c ⊢
      refine ⟨by linarith, ?_, ?_⟩
      · intro q' hq'
        rcases List.mem_cons.1 hq' with h | h
        · rw [h]; exact a
        · have := b q' h
          rw [dist_eq, if_pos hc] at this
          exact this
      · right
        rcases c with c | ⟨q', h, c⟩
        · exact ⟨q, by simp, c⟩
        · exact ⟨q', by simp [h], c⟩
    · rw [if_neg hc] at a c ⊢
      refine ⟨a, ?_, ?_⟩
      · intro q' hq'
        rcases List.mem_cons.1 hq' with h | h
        · rw [h]; linarith
        · have := b q' h
          rw [dist_eq, if_neg hc] at this
          exact this
      · rcases c with c | ⟨q', h, c⟩
        · exact .inl c
        · exact .inr ⟨q', by simp [h], c⟩

theorem sizeLoop_spec (l : List Ptc) (m : ℝ) :
    m ≤ sizeLoop l m ∧ (∀ p q, [p, q].Sublist l → len (p.pos - q.pos) ≤ sizeLoop l m) ∧
      (sizeLoop l m = m ∨ ∃ p q, [p, q].Sublist l ∧ sizeLoop l m = len (p.pos - q.pos)) := by
  induction l generalizing m with
  | nil => simp [sizeLoop]
  | cons x l ih =>
    unfold sizeLoop
    obtain ⟨a, b, c⟩ := inner_size x l m
    obtain ⟨a', b', c'⟩ := ih (l.foldl (fun m q => if dist x.pos q.pos > m then dist x.pos q.pos else m) m)
    refine ⟨by linarith, ?_, ?_⟩
    · intro p q h
      rcases List.sublist_cons_iff.1 h with h | ⟨r, hr, h⟩
      · exact b' p q h
      · obtain ⟨rfl, rfl⟩ : p = x ∧ [q] = r := by simpa using hr
        have := b q (List.singleton_sublist.1 h)
        linarith
    · rcases c' with c' | ⟨p, q, h, c'⟩
      · rw [c']
        rcases c with c | ⟨q, h, c⟩
        · exact .inl c
        · exact .inr ⟨x, q, by simpa using h, c⟩
      · exact .inr ⟨p, q, List.Sublist.cons _ h, c'⟩

end SpaceHub.Manip
