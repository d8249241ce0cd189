import Verif.Model.Misc
import Verif.Proof.Manip
import Verif.Props.Period
import Mathlib.Data.List.Nodup
import Mathlib.Analysis.Real.Pi.Bounds

/-
C82 (tests of hierarchical structure), C83 (secular time scale), C84 (stellar radii), C85 (file names), C86 (tidal energy, hard separation).
-/

set_option autoImplicit false

namespace SpaceHub.Props
open SpaceHub Orbit Spec.Orbit Misc

/-! ### C82 -/

/-- The energy per reduced mass of a pair with total mass `u`. -/
noncomputable def pairEnergy (n1 n2 : Node) : ℝ :=
  len (n1.vel - n2.vel) ^ 2 / 2 - (n1.mass + n2.mass) / len (n1.pos - n2.pos)

/-- Two nodes at different places form a pair with a positive semi-major axis below `amin`: `a = - u / (2 E)`. -/
def Tighter (n1 n2 : Node) (amin : ℝ) : Prop :=
  n1.pos ≠ n2.pos ∧ pairEnergy n1 n2 ≠ 0 ∧ 0 < -(n1.mass + n2.mass) / (2 * pairEnergy n1 n2) ∧
    -(n1.mass + n2.mass) / (2 * pairEnergy n1 n2) < amin

theorem sub_eq_zero_iff (a b : V3 ℝ) : a - b = 0 ↔ a = b := by
  constructor
  · intro h
    rw [V3.ext_iff] at h ⊢
    simp at h
    exact ⟨by linarith [h.1], by linarith [h.2.1], by linarith [h.2.2]⟩
  · rintro rfl; ext <;> simp

theorem closer_iff (n1 n2 : Node) (amin : ℝ) : closer n1 n2 amin = true ↔ Tighter n1 n2 amin := by
  unfold closer closer.calcSemi Tighter pairEnergy
  simp only [norm_eq_len, fdiv]
  by_cases hr : len (n1.pos - n2.pos) = 0
  · have : n1.pos = n2.pos := (sub_eq_zero_iff _ _).mp (len_eq_zero.mp hr)
    rw [if_pos hr]
    constructor
    · intro h; exact absurd h Bool.false_ne_true
    · intro h; exact absurd this h.1
  · have hne : n1.pos ≠ n2.pos := fun h => hr (len_eq_zero.mpr ((sub_eq_zero_iff _ _).mpr h))
    rw [if_neg hr, Sys.Res.ok_bind]
    set v := len (n1.vel - n2.vel)
    set r := len (n1.pos - n2.pos)
    set u := n1.mass + n2.mass
    have he : v * v - 2 * u / r = 2 * (v ^ 2 / 2 - u / r) := by ring
    rw [he]
    by_cases h0 : v ^ 2 / 2 - u / r = 0
    · simp [h0]
    · rw [if_neg (by simpa using h0)]
      simp [hne, h0]

theorem mostBoundFrom_iff (node : Node) (idx : Nat) (amin : ℝ) : ∀ (ns : List Node) (i : Nat),
    mostBoundFrom node idx amin i ns = true ↔ ∀ k n, ns[k]? = some n → i + k ≠ idx → ¬ Tighter node n amin := by
  intro ns
  induction ns with
  | nil => intro i; simp [mostBoundFrom]
  | cons m ns ih =>
    intro i
    rw [mostBoundFrom]
    by_cases h : i ≠ idx ∧ closer node m amin = true
    · rw [if_pos h]
      simp only [Bool.false_eq_true, false_iff, not_forall, not_not]
      exact ⟨0, m, rfl, h.1, (closer_iff _ _ _).mp h.2⟩
    · rw [if_neg h, ih]
      constructor
      · intro H k n hk hki
        cases k with
        | zero =>
          simp at hk
          subst hk
          intro ht
          exact h ⟨by simpa using hki, (closer_iff _ _ _).mpr ht⟩
        | succ k => exact H k n (by simpa using hk) (by omega)
      · intro H k n hk hki
        exact H (k + 1) n (by simpa using hk) (by omega)

/-- **C82, tightest pair.** `check_most_bound(vec, idx, amin)` holds exactly if no node other than the first one and `idx` itself forms a tighter pair with node
`idx`. -/
theorem C82_most_bound (vec : List Node) (idx : Nat) (amin : ℝ) (node : Node) (h : vec[idx]? = some node) :
    ∃ b, checkMostBound vec idx amin = .ok b ∧ (b = true ↔ ∀ i n, 1 ≤ i → vec[i]? = some n → i ≠ idx → ¬ Tighter node n amin) := by
  refine ⟨_, by rw [checkMostBound, h], ?_⟩
  rw [mostBoundFrom_iff]
  constructor
  · intro H i n h1 hn hi
    obtain ⟨k, rfl⟩ := Nat.exists_eq_add_of_le h1
    exact H k n (by rw [List.getElem?_drop]; exact hn) hi
  · intro H k n hk hki
    rw [List.getElem?_drop] at hk
    exact H (1 + k) n (by omega) hk hki

/-- The energy per mass of the first node in the field of the others. -/
noncomputable def fieldEnergy (n0 : Node) (ns : List Node) : ℝ :=
  len n0.vel ^ 2 / 2 - (ns.map fun n => n.mass / len (n0.pos - n.pos)).sum

/-- **C82, two nodes.** With one other node `check_unbound` holds exactly if the energy of the first node is not negative. -/
theorem C82_unbound_two_partial (n0 n : Node) (h : n0.pos ≠ n.pos) :
    ∃ b, checkUnbound [n0, n] = .ok b ∧ (b = true ↔ 0 ≤ fieldEnergy n0 [n]) := by
  have hr : len (n0.pos - n.pos) ≠ 0 := fun h' => h ((sub_eq_zero_iff _ _).mp (len_eq_zero.mp h'))
  refine ⟨decide (0.5 * n0.vel.norm2 + -n.mass / len (n0.pos - n.pos) ≥ 0), by simp only [checkUnbound, unboundPot, norm_eq_len, fdiv, if_neg hr, Sys.Res.ok_bind], ?_⟩
  rw [decide_eq_true_iff]
  unfold fieldEnergy
  have : n0.vel.norm2 = len n0.vel ^ 2 := by rw [len_sq]; rfl
  rw [this, List.map_singleton, List.sum_singleton, ge_iff_le, neg_div]
  constructor <;> intro h <;> norm_num at h ⊢ <;> linarith

theorem unboundPot_append (n0 : Node) (n : Node) : ∀ (ns : List Node) (pot : ℝ), (∀ m ∈ ns, n0.pos ≠ m.pos) →
    unboundPot n0 pot (ns ++ [n]) = unboundPot n0 0 [n] := by
  intro ns
  induction ns with
  | nil => intro pot _; rfl
  | cons m ns ih =>
    intro pot h
    have hr : len (n0.pos - m.pos) ≠ 0 := fun h' => h m (by simp) ((sub_eq_zero_iff _ _).mp (len_eq_zero.mp h'))
    rw [List.cons_append, unboundPot]
    simp only [norm_eq_len, fdiv, if_neg hr, Sys.Res.ok_bind]
    exact ih _ (fun k hk => h k (by simp [hk]))

/-- **C82 is false of the code for more nodes**: only the last one counts. -/
theorem C82_unbound_only_last (n0 n : Node) (ns : List Node) (h : ∀ m ∈ ns, n0.pos ≠ m.pos) :
    checkUnbound (n0 :: (ns ++ [n])) = checkUnbound [n0, n] := by
  simp only [checkUnbound, unboundPot_append n0 n ns 0 h]

/-- So a node bound to a heavy companion counts as unbound if a light and distant node comes last. -/
theorem C82_bound_counts_as_unbound : ∃ vec : List Node, ∃ n0 ns, vec = n0 :: ns ∧ (∀ m ∈ ns, n0.pos ≠ m.pos) ∧
    fieldEnergy n0 ns < 0 ∧ checkUnbound vec = .ok true := by
  refine ⟨_, ⟨⟨0, 0, 0⟩, ⟨1, 0, 0⟩, 1⟩, [⟨⟨1, 0, 0⟩, 0, 100⟩, ⟨⟨100, 0, 0⟩, 0, 1⟩], rfl, ?_, ?_, ?_⟩
  · intro m hm
    simp at hm
    rcases hm with rfl | rfl <;> simp
  · have l1 : len (⟨1, 0, 0⟩ : V3 ℝ) = 1 := by simp [len]
    have l2 : len ((⟨0, 0, 0⟩ : V3 ℝ) - ⟨1, 0, 0⟩) = 1 := len_eq_of (by norm_num) (by simp [V3.dot])
    have l3 : len ((⟨0, 0, 0⟩ : V3 ℝ) - ⟨100, 0, 0⟩) = 100 := len_eq_of (by norm_num) (by simp [V3.dot]; norm_num)
    simp only [fieldEnergy, List.map_cons, List.map_nil, List.sum_cons, List.sum_nil, l1, l2, l3]
    norm_num
  · have l3 : Orbit.norm ((⟨0, 0, 0⟩ : V3 ℝ) - ⟨100, 0, 0⟩) = 100 := by
      rw [norm_eq_len]; exact len_eq_of (by norm_num) (by simp [V3.dot]; norm_num)
    have := C82_unbound_only_last ⟨⟨0, 0, 0⟩, ⟨1, 0, 0⟩, 1⟩ ⟨⟨100, 0, 0⟩, 0, 1⟩ [⟨⟨1, 0, 0⟩, 0, 100⟩] (by simp)
    rw [List.cons_append, List.nil_append] at this
    rw [this]
    simp only [checkUnbound, unboundPot, l3, fdiv, V3.norm2]
    norm_num

/-! ### C83 -/

/-- **C83 is false of the code unless the inner masses add up to 1**: the time scale of the quadrupole is `P (m1 + m2) / m3 (a2 sqrt(1 - e2^2) / a1)^3`, with
`P` the period of the inner orbit; the code returns this times `m1 + m2`. -/
theorem C83_timescale_factor (m1 m2 m3 a1 a2 e2 : ℝ) (hm1 : 0 < m1) (hm2 : 0 < m2) (hm3 : 0 < m3) (ha1 : 0 < a1) (he : e2 ^ 2 < 1) :
    ∃ P, period m1 m2 a1 = .ok P ∧
      elkTimescale m1 m2 m3 a1 a2 e2 = .ok ((m1 + m2) * (P * ((m1 + m2) / m3) * (a2 * Real.sqrt (1 - e2 ^ 2) / a1) ^ 3)) := by
  have hm : 0 < m1 + m2 := by linarith
  have h1 : (m1 + m2) * G ≠ 0 := by rw [G]; linarith
  have h2 : ¬ (a1 * a1 * a1 / ((m1 + m2) * G) < 0) := by rw [G, not_lt]; positivity
  refine ⟨2 * Real.pi * Real.sqrt (a1 * a1 * a1 / ((m1 + m2) * G)), by simp only [period, if_pos (show a1 > 0 from ha1), fdiv, if_neg h1, fsqrt, if_neg h2, Sys.Res.ok_bind], ?_⟩
  have h3 : ¬ (a1 * a1 * a1 / G * (m1 + m2) < 0) := by rw [G, not_lt]; positivity
  have h4 : ¬ (1 - e2 * e2 < 0) := by rw [not_lt]; nlinarith
  simp only [elkTimescale, fsqrt, if_neg h3, if_neg h4, Sys.Res.ok_bind, fdiv, if_neg ha1.ne', if_neg hm3.ne']
  congr 1
  have e1 : Real.sqrt (a1 * a1 * a1 / G * (m1 + m2)) = (m1 + m2) * Real.sqrt (a1 * a1 * a1 / ((m1 + m2) * G)) := by
    rw [G, div_one, mul_one, show a1 * a1 * a1 * (m1 + m2) = (m1 + m2) ^ 2 * (a1 * a1 * a1 / (m1 + m2)) by field_simp,
      Real.sqrt_mul (by positivity), Real.sqrt_sq hm.le]
  rw [e1, show e2 * e2 = e2 ^ 2 by ring]
  ring

/-- The hypotheses hold for two stars of one solar mass at 1 AU with a third one at 10 AU: the value is twice the right one. -/
example : ∃ P, period 1 1 1 = .ok P ∧ elkTimescale 1 1 1 1 10 0 = .ok (2 * (P * 2 * 10 ^ 3)) := by
  obtain ⟨P, h, e⟩ := C83_timescale_factor 1 1 1 1 10 0 (by norm_num) (by norm_num) (by norm_num) (by norm_num) (by norm_num)
  refine ⟨P, h, ?_⟩
  rw [e]
  norm_num

/-- C83, orbits: `inner` is the orbit of the two inner bodies, `outer` that of the third body (its second mass) around them.  The same factor `m1 + m2`. -/
theorem C83_orbits (inner outer : EllOrb) (hm1 : 0 < inner.m1) (hm2 : 0 < inner.m2) (hm3 : 0 < outer.m2) (ha1 : 0 < inner.a) (he : outer.e ^ 2 < 1) :
    ∃ P, period inner.m1 inner.m2 inner.a = .ok P ∧ elkTimescaleOrb inner outer =
      .ok ((inner.m1 + inner.m2) * (P * ((inner.m1 + inner.m2) / outer.m2) * (outer.a * Real.sqrt (1 - outer.e ^ 2) / inner.a) ^ 3)) :=
  C83_timescale_factor _ _ _ _ _ _ hm1 hm2 hm3 ha1 he

/-! ### C84 -/

theorem km_pos : 0 < km := by unfold km; norm_num
theorem sec_pos : 0 < sec := by unfold sec; have := Real.pi_pos; positivity
theorem C_pos : 0 < C := by unfold C; have := km_pos; have := sec_pos; positivity
theorem Rs_pos : 0 < Rs := by unfold Rs; have := km_pos; positivity

/-- **C84.** Radii: that of a black hole is where the escape velocity is the velocity of light; a neutron star has 10 km whatever its mass; a star of one
solar mass has the solar radius, heavier stars are larger; heavier white dwarfs are smaller.  All are positive. -/
theorem C84_radii (m : ℝ) (hm : 0 < m) :
    (∃ r, stellarRadius .BH m = .ok r ∧ 0 < r ∧ Real.sqrt (2 * G * m / r) = C) ∧
    stellarRadius .NS m = .ok (10 * km) ∧
    stellarRadius .STAR 1 = .ok Rs ∧ stellarRadius .WD 1 = .ok (Rs / 100) ∧
    (∀ m', m < m' → ∃ r r', stellarRadius .STAR m = .ok r ∧ stellarRadius .STAR m' = .ok r' ∧ 0 < r ∧ r < r') ∧
    (∀ m', m < m' → ∃ r r', stellarRadius .WD m = .ok r ∧ stellarRadius .WD m' = .ok r' ∧ 0 < r' ∧ r' < r) := by
  have hC := C_pos
  have hR := Rs_pos
  refine ⟨⟨_, rfl, ?_, ?_⟩, rfl, ?_, ?_, ?_, ?_⟩
  · unfold G; positivity
  · rw [show 2 * G * m / (2 * G * m / C / C) = C ^ 2 by unfold G; field_simp]
    exact Real.sqrt_sq hC.le
  · simp [stellarRadius, Ms]
  · simp only [stellarRadius, fdiv, Ms, if_neg (show ¬ ((1:ℝ) = 0) by norm_num), Sys.Res.ok_bind]
    rw [if_neg (by norm_num), div_one, Real.one_rpow]
    congr 1
    norm_num
    ring
  · intro m' h
    have hm' : 0 < m' := lt_trans hm h
    refine ⟨Rs * (m / Ms) ^ (0.75:ℝ), Rs * (m' / Ms) ^ (0.75:ℝ), ?_, ?_, ?_, ?_⟩
    · rw [stellarRadius, if_neg]; rw [Ms, div_one, not_lt]; exact hm.le
    · rw [stellarRadius, if_neg]; rw [Ms, div_one, not_lt]; exact hm'.le
    · unfold Ms; positivity
    · rw [Ms, div_one, div_one]
      exact mul_lt_mul_of_pos_left (Real.rpow_lt_rpow hm.le h (by norm_num)) hR
  · intro m' h
    have hm' : 0 < m' := lt_trans hm h
    refine ⟨0.01 * Rs * (1 / m) ^ ((1:ℝ) / 3), 0.01 * Rs * (1 / m') ^ ((1:ℝ) / 3), ?_, ?_, by positivity, ?_⟩
    · simp only [stellarRadius, fdiv, Ms, if_neg hm.ne', Sys.Res.ok_bind]
      rw [if_neg]; rw [not_lt]; positivity
    · simp only [stellarRadius, fdiv, Ms, if_neg hm'.ne', Sys.Res.ok_bind]
      rw [if_neg]; rw [not_lt]; positivity
    · refine mul_lt_mul_of_pos_left (Real.rpow_lt_rpow (by positivity) ?_ (by norm_num)) (by positivity)
      exact one_div_lt_one_div_of_lt hm h

/-! ### C85 -/

theorem digitChar_inj : ∀ a < 10, ∀ b < 10, Nat.digitChar a = Nat.digitChar b → a = b := by decide

theorem decimal_inj {m n : Nat} (h : decimal m = decimal n) : m = n := by
  have key : ∀ k, k ≠ 0 → Nat.ofDigits 10 ((decimal k).reverse.map fun c => c.toNat - 48) = k := by
    intro k hk
    rw [decimal, if_neg hk, List.map_reverse.symm, List.reverse_reverse, List.map_map]
    have : (Nat.digits 10 k).map ((fun c => c.toNat - 48) ∘ Nat.digitChar) = Nat.digits 10 k := by
      conv_rhs => rw [← List.map_id (Nat.digits 10 k)]
      apply List.map_congr_left
      intro d hd
      have hd' := Nat.digits_lt_base (by norm_num) hd
      have : ∀ a < 10, (Nat.digitChar a).toNat - 48 = a := by decide
      exact this d hd'
    rw [this, Nat.ofDigits_digits]
  have z : Nat.ofDigits 10 ((decimal 0).reverse.map fun c => c.toNat - 48) = 0 := by decide
  have key' : ∀ k, Nat.ofDigits 10 ((decimal k).reverse.map fun c => c.toNat - 48) = k := by
    intro k
    by_cases hk : k = 0
    · subst hk; exact z
    · exact key k hk
  rw [← key' m, ← key' n, h]

theorem decimal_no_minus (n : Nat) : ∀ l, decimal n ≠ '-' :: l := by
  intro l h
  have hc : '-' ∈ decimal n := by rw [h]; simp
  unfold decimal at hc
  split at hc
  · simp at hc
  · simp only [List.mem_map, List.mem_reverse] at hc
    obtain ⟨d, hd, e⟩ := hc
    have hd' := Nat.digits_lt_base (by norm_num) hd
    have : ∀ a < 10, Nat.digitChar a ≠ '-' := by decide
    exact this d hd' e

theorem decimalInt_inj {a b : Int} (h : decimalInt a = decimalInt b) : a = b := by
  cases a <;> cases b <;> simp only [decimalInt] at h
  · rw [decimal_inj h]
  · exact absurd h (decimal_no_minus _ _)
  · exact absurd h.symm (decimal_no_minus _ _)
  · injection h with _ h
    have := decimal_inj h
    congr 1
    omega

/-- **C85, make_name.** With the same prefix and extension different numbers give different names. -/
theorem C85_make_name (pre ext : List Char) (a b : Int) (h : makeName pre a ext = makeName pre b ext) : a = b := by
  unfold makeName at h
  rw [List.append_left_inj, List.append_right_inj] at h
  exact decimalInt_inj h

/-- The calls of `auto_name` at the times `ts`, with one prefix and a format `fmt` of the time. -/
def callsAt (pre : List Char) (fmt : Nat → List Char) (ts : List Nat) : List (List Char × List Char) := ts.map fun t => (pre, fmt t)

theorem base_inj {pre : List Char} {fmt : Nat → List Char} {L : Nat} (hL : ∀ t, (fmt t).length = L) (hi : Function.Injective fmt) {t u : Nat}
    {x y : List Char} (h : pre ++ fmt t ++ x = pre ++ fmt u ++ y) : t = u ∧ x = y := by
  rw [List.append_assoc, List.append_assoc] at h
  have h1 := (List.append_inj (List.append_cancel_left h) (by rw [hL, hL]))
  exact ⟨hi h1.1, h1.2⟩

theorem names_later (pre : List Char) (fmt : Nat → List Char) {L : Nat} (hL : ∀ t, (fmt t).length = L) (hi : Function.Injective fmt) :
    ∀ (ts : List Nat) (t d : Nat), (t :: ts).Pairwise (· ≤ ·) →
      (names { duplicate := d, lastName := pre ++ fmt t } (callsAt pre fmt ts)).Nodup ∧
      ∀ w ∈ names { duplicate := d, lastName := pre ++ fmt t } (callsAt pre fmt ts),
        (∃ u x, t < u ∧ w = pre ++ fmt u ++ x) ∨ ∃ k ≥ d, w = pre ++ fmt t ++ (['('] ++ decimal k ++ [')', '.', 'd', 'a', 't']) := by
  intro ts
  induction ts with
  | nil => intro t d _; simp [callsAt, names]
  | cons u us ih =>
    intro t d hs
    have hs2 : (u :: us).Pairwise (· ≤ ·) := (List.pairwise_cons.mp hs).2
    have htu : t ≤ u := (List.pairwise_cons.mp hs).1 u (by simp)
    simp only [callsAt, List.map_cons, names]
    by_cases he : u = t
    · subst he
      obtain ⟨n1, n2⟩ := ih u (d + 1) hs2
      simp only [autoName, if_true]
      refine ⟨List.nodup_cons.mpr ⟨fun hm => ?_, n1⟩, ?_⟩
      · rcases n2 _ hm with ⟨v, x, hv, e⟩ | ⟨k, hk, e⟩
        · rw [show pre ++ fmt u ++ ['('] ++ decimal d ++ [')', '.', 'd', 'a', 't'] =
            pre ++ fmt u ++ (['('] ++ decimal d ++ [')', '.', 'd', 'a', 't']) by simp] at e
          have := (base_inj hL hi e).1
          omega
        · rw [show pre ++ fmt u ++ ['('] ++ decimal d ++ [')', '.', 'd', 'a', 't'] =
            pre ++ fmt u ++ (['('] ++ decimal d ++ [')', '.', 'd', 'a', 't']) by simp] at e
          have h2 := (base_inj hL hi e).2
          rw [List.append_left_inj, List.append_right_inj] at h2
          have := decimal_inj h2
          omega
      · intro w hw
        rcases List.mem_cons.mp hw with rfl | hw
        · exact Or.inr ⟨d, le_refl _, by simp⟩
        · rcases n2 _ hw with h | ⟨k, hk, e⟩
          · exact Or.inl h
          · exact Or.inr ⟨k, by omega, e⟩
    · have hne : ¬ (pre ++ fmt u = pre ++ fmt t) := fun h => he (hi (List.append_cancel_left h))
      obtain ⟨n1, n2⟩ := ih u 1 hs2
      simp only [autoName, if_neg hne]
      refine ⟨List.nodup_cons.mpr ⟨fun hm => ?_, n1⟩, ?_⟩
      · rcases n2 _ hm with ⟨v, x, hv, e⟩ | ⟨k, hk, e⟩
        · have := (base_inj hL hi e).1
          omega
        · have h2 := (base_inj hL hi e).2
          simp at h2
      · intro w hw
        rcases List.mem_cons.mp hw with rfl | hw
        · exact Or.inl ⟨u, _, by omega, rfl⟩
        · rcases n2 _ hw with ⟨v, x, hv, e⟩ | ⟨k, hk, e⟩
          · exact Or.inl ⟨v, x, by omega, e⟩
          · exact Or.inl ⟨u, _, by omega, e⟩

/-- **C85, auto_name.** With one prefix, any number of calls at times that never decrease give different names, if the format of the time is injective and of
fixed, positive length. -/
theorem C85_auto_name_partial (pre : List Char) (fmt : Nat → List Char) (L : Nat) (h0 : 0 < L) (hL : ∀ t, (fmt t).length = L)
    (hi : Function.Injective fmt) (ts : List Nat) (hs : ts.Pairwise (· ≤ ·)) : (names NameState.init (callsAt pre fmt ts)).Nodup := by
  cases ts with
  | nil => simp [callsAt, names]
  | cons t ts =>
    obtain ⟨n1, n2⟩ := names_later pre fmt hL hi ts t 1 hs
    have hne : ¬ (pre ++ fmt t = []) := by
      intro h
      have := congrArg List.length h
      rw [List.length_append, hL] at this
      simp at this
      omega
    simp only [callsAt, List.map_cons, names, autoName, NameState.init, if_neg hne]
    refine List.nodup_cons.mpr ⟨fun hm => ?_, n1⟩
    rcases n2 _ hm with ⟨v, x, hv, e⟩ | ⟨k, hk, e⟩
    · have := (base_inj hL hi e).1
      omega
    · have h2 := (base_inj hL hi e).2
      simp at h2

/-- One fixed-length injective format: a character per time (the theorem needs nothing else of it); three calls, two of them in the same second. -/
example : names NameState.init (callsAt ['s'] (fun t => [Char.ofNat (48 + t)]) [1, 1, 2]) =
    [['s', '1', '.', 'd', 'a', 't'], ['s', '1', '(', '1', ')', '.', 'd', 'a', 't'], ['s', '2', '.', 'd', 'a', 't']] := by
  simp [names, callsAt, autoName, NameState.init, decimal]

theorem autoName_new {s : NameState} {p t : List Char} (h : p ++ t ≠ s.lastName) :
    autoName s p t = (p ++ t ++ ['.', 'd', 'a', 't'], { duplicate := 1, lastName := p ++ t }) := by
  unfold autoName
  exact if_neg h

/-- **C85 is false of the code if the prefixes alternate**: within one second the third call returns the name of the first one, whatever the two prefixes. -/
theorem C85_alternating (p q stamp : List Char) (hpq : p ≠ q) (hs : stamp ≠ []) :
    ∃ n, names NameState.init [(p, stamp), (q, stamp), (p, stamp)] = [p ++ stamp ++ n, q ++ stamp ++ n, p ++ stamp ++ n] := by
  have h1 : p ++ stamp ≠ NameState.init.lastName := by simp [NameState.init, hs]
  have h2 : ¬ (q ++ stamp = p ++ stamp) := fun h => hpq (List.append_cancel_right h).symm
  have h3 : ¬ (p ++ stamp = q ++ stamp) := fun h => hpq (List.append_cancel_right h)
  exact ⟨['.', 'd', 'a', 't'], by rw [names, names, names, names, autoName_new h1, autoName_new h2, autoName_new h3]⟩

/-- It is also false if the local time comes back, as at the end of daylight-saving time: the third call returns the name of the first one. -/
theorem C85_repeated_time (p s u : List Char) (hs : s ≠ []) (hu : u ≠ s) :
    ∃ n, names NameState.init [(p, s), (p, u), (p, s)] = [p ++ s ++ n, p ++ u ++ n, p ++ s ++ n] := by
  have h1 : p ++ s ≠ NameState.init.lastName := by simp [NameState.init, hs]
  have h2 : ¬ (p ++ u = p ++ s) := fun h => hu (List.append_cancel_left h)
  have h3 : ¬ (p ++ s = p ++ u) := fun h => hu (List.append_cancel_left h).symm
  exact ⟨['.', 'd', 'a', 't'], by rw [names, names, names, names, autoName_new h1, autoName_new h2, autoName_new h3]⟩

/-! ### C86 -/

open Manip Spec.Cluster in
/-- **C86, tidal energy.** `E_tid` of two groups whose centres of mass are a distance `r > 0` apart: defined, the same with the groups exchanged, the same
after any displacement of both, and within `G m1 m2 (R1 + R2)^2 / r^3` of the difference of the potential energy of the centres at the distances `r` and `r + R1 + R2`. -/
theorem C86_tidal_energy (c1 c2 : Manip.Cluster) (R1 R2 : ℝ) (X1 X2 : V3 ℝ) (hm1 : 0 < totalMass (members c1)) (hm2 : 0 < totalMass (members c2))
    (hX1 : IsCentre (members c1) X1) (hX2 : IsCentre (members c2) X2) (hX : X1 ≠ X2) (hR1 : 0 ≤ R1) (hR2 : 0 ≤ R2) :
    ∃ E, eTid c1 c2 R1 R2 = .ok E ∧ eTid c2 c1 R2 R1 = .ok E ∧
      (∀ c1' c2' a b, Displaced a b (members c1) (members c1') → Displaced a b (members c2) (members c2') → eTid c1' c2' R1 R2 = .ok E) ∧
      let r := len (X1 - X2)
      let U := fun s : ℝ => -(G * totalMass (members c1) * totalMass (members c2)) / s
      |E - (U r - U (r + R1 + R2))| ≤ G * totalMass (members c1) * totalMass (members c2) * (R1 + R2) ^ 2 / r ^ 3 := by
  have gen : ∀ (d1 d2 : Manip.Cluster) (Y1 Y2 : V3 ℝ) (S1 S2 : ℝ), totalMass (members d1) ≠ 0 → totalMass (members d2) ≠ 0 →
      IsCentre (members d1) Y1 → IsCentre (members d2) Y2 → Y1 ≠ Y2 →
      eTid d1 d2 S1 S2 = .ok (-G * totalMass (members d1) * totalMass (members d2) * (S1 + S2) / (len (Y1 - Y2) * len (Y1 - Y2))) := by
    intro d1 d2 Y1 Y2 S1 S2 h1 h2 hY1 hY2 hY
    obtain ⟨Z1, e1, i1⟩ := comP_ok h1
    obtain ⟨Z2, e2, i2⟩ := comP_ok h2
    rw [centre_unique h1 i1 hY1] at e1
    rw [centre_unique h2 i2 hY2] at e2
    have hr : len (Y1 - Y2) ≠ 0 := fun h' => hY ((sub_eq_zero_iff _ _).mp (len_eq_zero.mp h'))
    simp only [eTid, e1, e2, Sys.Res.ok_bind, Manip.dist_eq, fdiv, if_neg (mul_ne_zero hr hr), mTot_eq]
  have hlen : 0 < len (X1 - X2) := by
    rcases (len_nonneg (X1 - X2)).lt_or_eq with h | h
    · exact h
    · exact absurd ((sub_eq_zero_iff _ _).mp (len_eq_zero.mp h.symm)) hX
  refine ⟨_, gen c1 c2 X1 X2 R1 R2 hm1.ne' hm2.ne' hX1 hX2 hX, ?_, ?_, ?_⟩
  · rw [gen c2 c1 X2 X1 R2 R1 hm2.ne' hm1.ne' hX2 hX1 hX.symm]
    have : len (X2 - X1) = len (X1 - X2) := by
      refine len_eq_of (len_nonneg _) ?_
      rw [len_sq]; simp [V3.dot]; ring
    rw [this]
    congr 1
    ring
  · intro c1' c2' a b hd1 hd2
    rw [gen c1' c2' (X1 + a) (X2 + a) R1 R2 (by rw [Displaced.mass hd1]; exact hm1.ne') (by rw [Displaced.mass hd2]; exact hm2.ne') (Displaced.centre hd1 hX1) (Displaced.centre hd2 hX2)
      (fun h => hX (add_right_cancel h)), Displaced.mass hd1, Displaced.mass hd2, add_sub_add_right_eq_sub]
  · intro r U
    have hr : 0 < r := hlen
    have hM : 0 < G * totalMass (members c1) * totalMass (members c2) := by unfold G; positivity
    set M := G * totalMass (members c1) * totalMass (members c2) with hMd
    have e : -G * totalMass (members c1) * totalMass (members c2) * (R1 + R2) / (len (X1 - X2) * len (X1 - X2)) - (U r - U (r + R1 + R2)) =
        -(M * (R1 + R2) ^ 2 / (r ^ 2 * (r + R1 + R2))) := by
      rw [show -G * totalMass (members c1) * totalMass (members c2) = -M by rw [hMd]; ring]
      show -M * (R1 + R2) / (r * r) - (-M / r - -M / (r + R1 + R2)) = _
      have : 0 < r + R1 + R2 := by linarith
      field_simp
      ring
    rw [e, abs_neg, abs_of_nonneg (by positivity)]
    apply div_le_div_of_nonneg_left (by positivity) (by positivity)
    nlinarith [sq_nonneg r, mul_nonneg (sq_nonneg r) hR1, mul_nonneg (sq_nonneg r) hR2]

/-- The hypotheses hold for two stars two units apart. -/
example : ∃ E, Manip.eTid (.one ⟨1, ⟨0, 0, 0⟩, 0, 0⟩) (.one ⟨3, ⟨2, 0, 0⟩, 0, 0⟩) 0.5 0.5 = .ok E := by
  obtain ⟨E, h, -⟩ := C86_tidal_energy (.one ⟨1, ⟨0, 0, 0⟩, 0, 0⟩) (.one ⟨3, ⟨2, 0, 0⟩, 0, 0⟩) 0.5 0.5 ⟨0, 0, 0⟩ ⟨2, 0, 0⟩
    (by simp [Spec.Cluster.totalMass, Spec.Cluster.members]) (by simp [Spec.Cluster.totalMass, Spec.Cluster.members])
    (by simp [Spec.Cluster.IsCentre, Spec.Cluster.members]) (by simp [Spec.Cluster.IsCentre, Spec.Cluster.members]) (by simp) (by norm_num) (by norm_num)
  exact ⟨E, h⟩

/-- **C86, hard separation.** `hard_radius` is the semi-major axis at which the binding energy of the pair equals the kinetic energy of a star of the
surroundings at the velocity dispersion; tighter pairs are bound more strongly. -/
theorem C86_hard_radius (m1 m2 mEnv sigma : ℝ) (h1 : 0 < m1) (h2 : 0 < m2) (he : 0 < mEnv) (hs : 0 < sigma) :
    ∃ a, Manip.hardRadius m1 m2 mEnv sigma = .ok a ∧ 0 < a ∧ G * m1 * m2 / (2 * a) = 1 / 2 * mEnv * sigma ^ 2 ∧
      ∀ a', 0 < a' → (1 / 2 * mEnv * sigma ^ 2 < G * m1 * m2 / (2 * a') ↔ a' < a) := by
  have hd : mEnv * sigma * sigma ≠ 0 := by positivity
  have e : G * m1 * m2 / (2 * (G * m1 * m2 / (mEnv * sigma * sigma))) = 1 / 2 * mEnv * sigma ^ 2 := by unfold G; field_simp
  have hp : 0 < G * m1 * m2 / (mEnv * sigma * sigma) := by unfold G; positivity
  refine ⟨G * m1 * m2 / (mEnv * sigma * sigma), by rw [Manip.hardRadius, fdiv, if_neg hd], hp, e, ?_⟩
  intro a' ha'
  rw [lt_div_iff₀ (by positivity), lt_div_iff₀ (by positivity)]
  constructor <;> intro h <;> linarith

end SpaceHub.Props
