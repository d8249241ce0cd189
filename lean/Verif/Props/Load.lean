import Verif.Proof.SysBase

/-
C13: writing the state of a particle system to a flat array and reading it back.
-/

set_option autoImplicit false

namespace SpaceHub.Sys
open SpaceHub V3 Force Core

theorem take_one {y : List ℝ} (h : 1 ≤ y.length) : [y.getD 0 0] = y.take 1 := by
  cases y with
  | nil => simp at h
  | cons a y => simp

/-- the chain coordinates determine the Cartesian ones -/
theorem toCartesian_belongs {n : Nat} {idx : Arr Nat} (hn : n ≠ 0) (hi : IsIndex n idx) (chain cart old : Arr (V3 ℝ))
    (hb : BelongsTo n idx chain cart) :
    Chain.toCartesian n chain old idx = .ok (fun k => if k < n then cart k else old k) := by
  obtain ⟨c, hc, h0, hs, ho⟩ := Chain.toCartesian_spec hn chain old idx hi
  rw [hc]
  congr 1
  funext k
  by_cases hk : k < n
  · rw [if_pos hk]
    obtain ⟨i, hin, rfl⟩ := hi.surj hk
    clear hk
    induction i with
    | zero => rw [h0, hb.base]
    | succ i ih => rw [hs i hin, ih (by omega), hb.link i hin]; abel
  · rw [if_neg hk]; exact ho k (by omega)

theorem belongs_congr {n : Nat} {idx : Arr Nat} (hn : n ≠ 0) (hi : IsIndex n idx) {chain chain' cart cart' : Arr (V3 ℝ)}
    (h1 : ∀ k, k < n → chain k = chain' k) (h2 : ∀ k, k < n → cart k = cart' k) (hb : BelongsTo n idx chain cart) :
    BelongsTo n idx chain' cart' := by
  constructor
  · intro i h
    rw [← h1 i (by omega), ← h2 _ (hi.lt _ h), ← h2 _ (hi.lt i (by omega))]; exact hb.link i h
  · rw [← h1 _ (by omega), ← h2 _ (hi.lt 0 (by omega))]; exact hb.base

/-! ### SimpleSystem -/

theorem Simple.write_eq (I : Interactions) (s : Simple) :
    s.write I = [s.time] ++ coords s.P.num s.P.pos ++ coords s.P.num s.P.vel ++
      (if I.velDep then coords s.P.num s.aux else []) := by
  unfold Simple.write
  cases I.velDep <;> simp [addCoordsTo_eq]

/-- The array written has `variable_number()` entries. -/
theorem C13_simple_size (I : Interactions) (s : Simple) : (s.write I).length = s.variableNumber I := by
  rw [Simple.write_eq]
  unfold Simple.variableNumber
  cases I.velDep <;> simp [coords_length] <;> omega

/-- Reading into `s0` what `s` wrote, for two systems of equally many particles, gives `s0` the time, positions,
velocities and (when present) auxiliary velocities of `s` and changes nothing else. -/
theorem C13_simple_read_write (I : Interactions) (s0 s : Simple) (hn : s0.P.num = s.P.num) :
    ∃ s', s0.read I (s.write I) = .ok s' ∧ s'.time = s.time ∧
      (∀ k, k < s.P.num → s'.P.pos k = s.P.pos k ∧ s'.P.vel k = s.P.vel k ∧
        (I.velDep = true → s'.aux k = s.aux k)) ∧
      s'.P.num = s0.P.num ∧ s'.P.mass = s0.P.mass ∧ s'.inc = s0.inc ∧ s'.sync = s0.sync ∧
      (∀ k, s.P.num ≤ k → s'.P.pos k = s0.P.pos k ∧ s'.P.vel k = s0.P.vel k ∧ s'.aux k = s0.aux k) ∧
      (I.velDep = false → s'.aux = s0.aux) := by
  have hlen : (s.write I).length = s0.variableNumber I := by
    rw [C13_simple_size]; unfold Simple.variableNumber; rw [hn]
  have hpos : loadToCoords (s.write I) posOffset (velOffset s0.P.num) = (List.range s0.P.num).map s.P.pos := by
    rw [Simple.write_eq, hn, List.append_assoc]
    exact load_coords [s.time] _ s.P.num s.P.pos _ _ rfl (by unfold velOffset posOffset; omega)
  have hvel : loadToCoords (s.write I) (velOffset s0.P.num) (auxOffset s0.P.num) = (List.range s0.P.num).map s.P.vel := by
    rw [Simple.write_eq, hn]
    exact load_coords ([s.time] ++ coords s.P.num s.P.pos) _ s.P.num s.P.vel _ _
      (by simp [coords_length, velOffset]; omega) (by unfold velOffset auxOffset; omega)
  have ht : (s.write I).getD 0 0 = s.time := by rw [Simple.write_eq]; simp
  unfold Simple.read
  rw [if_pos hlen]
  simp only [hpos, hvel, store_map, Res.ok_bind, ht]
  cases hd : I.velDep
  · refine ⟨_, rfl, rfl, fun k hk => ⟨?_, ?_, fun h => by simp at h⟩, rfl, rfl, rfl, rfl, fun k hk => ⟨?_, ?_, rfl⟩,
      fun _ => rfl⟩ <;> simp [hn] <;> omega
  · have haux : loadToCoords (s.write I) (auxOffset s0.P.num) (s.write I).length = (List.range s0.P.num).map s.aux := by
      rw [C13_simple_size, Simple.write_eq, hn, hd, if_pos rfl]
      have := load_coords ([s.time] ++ coords s.P.num s.P.pos ++ coords s.P.num s.P.vel) [] s.P.num s.aux
        (auxOffset s.P.num) (s.variableNumber I)
        (by simp [coords_length, auxOffset]; omega) (by unfold Simple.variableNumber auxOffset; rw [hd]; simp; omega)
      simpa using this
    simp only [if_true, haux, store_map, Res.ok_bind]
    refine ⟨_, rfl, rfl, fun k hk => ⟨?_, ?_, fun _ => ?_⟩, rfl, rfl, rfl, rfl, fun k hk => ⟨?_, ?_, ?_⟩,
      fun h => by simp at h⟩ <;> simp [hn] <;> omega

/-- Writing after reading an array of the right length gives the array back. -/
theorem C13_simple_write_read (I : Interactions) (s : Simple) (y : List ℝ) (hy : y.length = s.variableNumber I) :
    ∃ s', s.read I y = .ok s' ∧ s'.write I = y := by
  unfold Simple.read
  rw [if_pos hy]
  unfold Simple.variableNumber at hy
  have l1 : (loadToCoords y posOffset (velOffset s.P.num)).length = s.P.num := by
    rw [loadToCoords_length]; unfold posOffset velOffset; omega
  have l2 : (loadToCoords y (velOffset s.P.num) (auxOffset s.P.num)).length = s.P.num := by
    rw [loadToCoords_length]; unfold auxOffset velOffset; omega
  simp only [store_ok _ l1, store_ok _ l2, Res.ok_bind]
  have c1 := coords_load y posOffset (velOffset s.P.num) s.P.num (by unfold posOffset velOffset; omega)
    (by unfold posOffset; cases hd : I.velDep <;> rw [hd] at hy <;> simp at hy <;> omega)
  have c2 := coords_load y (velOffset s.P.num) (auxOffset s.P.num) s.P.num (by unfold auxOffset velOffset; omega)
    (by unfold velOffset; cases hd : I.velDep <;> rw [hd] at hy <;> simp at hy <;> omega)
  have e0 : ∀ (f old : Arr (V3 ℝ)), coords s.P.num (fun k => if k < s.P.num then f k else old k) = coords s.P.num f :=
    fun f old => coords_congr fun k hk => by simp [hk]
  have hpre : [y.getD 0 0] ++ (y.drop posOffset).take (3 * s.P.num) ++ (y.drop (velOffset s.P.num)).take (3 * s.P.num)
      = y.take (1 + 3 * s.P.num + 3 * s.P.num) := by
    rw [take_one (by omega)]
    unfold posOffset velOffset
    rw [← List.take_add, show s.P.num * 3 + 1 = 1 + 3 * s.P.num by omega, ← List.take_add]
  cases hd : I.velDep
  · refine ⟨_, rfl, ?_⟩
    rw [Simple.write_eq, hd]
    simp only [e0, Bool.false_eq_true, if_false, List.append_nil]
    rw [c1, c2, hpre, List.take_of_length_le]
    rw [hd] at hy; simp at hy; omega
  · rw [hd] at hy
    simp at hy
    have l3 : (loadToCoords y (auxOffset s.P.num) y.length).length = s.P.num := by
      rw [loadToCoords_length]; unfold auxOffset; omega
    simp only [if_true, store_ok _ l3, Res.ok_bind]
    refine ⟨_, rfl, ?_⟩
    rw [Simple.write_eq, hd]
    simp only [e0, if_true]
    have c3 := coords_load y (auxOffset s.P.num) y.length s.P.num (by unfold auxOffset; omega) (by unfold auxOffset; omega)
    rw [c1, c2, c3, hpre]
    unfold auxOffset
    rw [show s.P.num * 6 + 1 = 1 + 3 * s.P.num + 3 * s.P.num by omega, ← List.take_add, List.take_of_length_le]
    omega

/-- Reading an array of any other length aborts. -/
theorem C13_simple_abort (I : Interactions) (s : Simple) (y : List ℝ) (hy : y.length ≠ s.variableNumber I) :
    s.read I y = .abort := by
  unfold Simple.read; rw [if_neg hy]

/-! ### RegularizedSystem -/

theorem ReguSys.write_eq (I : Interactions) (s : ReguSys) :
    s.write I = [s.time] ++ coords s.P.num s.P.pos ++ coords s.P.num s.P.vel ++
      (if I.velDep then coords s.P.num s.aux else []) ++ [s.R.omega, s.R.bindE] := by
  unfold ReguSys.write
  cases I.velDep <;> simp [addCoordsTo_eq]

theorem C13_regu_size (I : Interactions) (s : ReguSys) : (s.write I).length = s.variableNumber I := by
  rw [ReguSys.write_eq]
  unfold ReguSys.variableNumber
  cases I.velDep <;> simp [coords_length] <;> omega

theorem tail_getD (pre : List ℝ) (a b : ℝ) (m : Nat) (h : pre.length = m) :
    (pre ++ [a, b]).getD m 0 = a ∧ (pre ++ [a, b]).getD (m + 1) 0 = b := by
  subst h
  constructor
  · rw [List.getD_append_right _ _ _ _ (le_refl _)]; simp
  · rw [List.getD_append_right _ _ _ _ (by omega)]; simp

/-- As `C13_simple_read_write`, together with the regularisation variables. -/
theorem C13_regu_read_write (I : Interactions) (s0 s : ReguSys) (hn : s0.P.num = s.P.num) :
    ∃ s', s0.read I (s.write I) = .ok s' ∧ s'.time = s.time ∧ s'.R.omega = s.R.omega ∧ s'.R.bindE = s.R.bindE ∧
      (∀ k, k < s.P.num → s'.P.pos k = s.P.pos k ∧ s'.P.vel k = s.P.vel k ∧
        (I.velDep = true → s'.aux k = s.aux k)) ∧
      s'.P.num = s0.P.num ∧ s'.P.mass = s0.P.mass ∧ s'.inc = s0.inc ∧ s'.sync = s0.sync ∧ s'.R.scale = s0.R.scale ∧
      (∀ k, s.P.num ≤ k → s'.P.pos k = s0.P.pos k ∧ s'.P.vel k = s0.P.vel k ∧ s'.aux k = s0.aux k) ∧
      (I.velDep = false → s'.aux = s0.aux) := by
  have hlen : (s.write I).length = s0.variableNumber I := by
    rw [C13_regu_size]; unfold ReguSys.variableNumber; rw [hn]
  have hpos : loadToCoords (s.write I) posOffset (velOffset s0.P.num) = (List.range s0.P.num).map s.P.pos := by
    rw [ReguSys.write_eq, hn, List.append_assoc, List.append_assoc]
    exact load_coords [s.time] _ s.P.num s.P.pos _ _ rfl (by unfold velOffset posOffset; omega)
  have hvel : loadToCoords (s.write I) (velOffset s0.P.num) (auxOffset s0.P.num) = (List.range s0.P.num).map s.P.vel := by
    rw [ReguSys.write_eq, hn, List.append_assoc]
    exact load_coords ([s.time] ++ coords s.P.num s.P.pos) _ s.P.num s.P.vel _ _
      (by simp [coords_length, velOffset]; omega) (by unfold velOffset auxOffset; omega)
  have ht : (s.write I).getD 0 0 = s.time := by rw [ReguSys.write_eq]; simp
  have hom := tail_getD ([s.time] ++ coords s.P.num s.P.pos ++ coords s.P.num s.P.vel ++
      (if I.velDep then coords s.P.num s.aux else [])) s.R.omega s.R.bindE (omegaOffset s0.P.num I.velDep)
      (by unfold omegaOffset; rw [hn]; cases I.velDep <;> simp [coords_length] <;> omega)
  rw [← ReguSys.write_eq] at hom
  have hbe : (s.write I).getD (bindEOffset s0.P.num I.velDep) 0 = s.R.bindE := hom.2
  unfold ReguSys.read
  rw [if_pos hlen]
  simp only [hpos, hvel, store_map, Res.ok_bind, ht, hom.1, hbe]
  cases hd : I.velDep
  · refine ⟨_, rfl, rfl, rfl, rfl, fun k hk => ⟨?_, ?_, fun h => by simp at h⟩, rfl, rfl, rfl, rfl, rfl,
      fun k hk => ⟨?_, ?_, rfl⟩, fun _ => rfl⟩ <;> simp [hn] <;> omega
  · have haux : loadToCoords (s.write I) (auxOffset s0.P.num) (s.write I).length = (List.range s0.P.num).map s.aux := by
      rw [C13_regu_size, ReguSys.write_eq, hn, hd, if_pos rfl]
      exact load_coords ([s.time] ++ coords s.P.num s.P.pos ++ coords s.P.num s.P.vel) _ s.P.num s.aux
        (auxOffset s.P.num) (s.variableNumber I)
        (by simp [coords_length, auxOffset]; omega) (by unfold ReguSys.variableNumber auxOffset; rw [hd]; simp; omega)
    simp only [if_true, haux, store_map, Res.ok_bind]
    refine ⟨_, rfl, rfl, rfl, rfl, fun k hk => ⟨?_, ?_, fun _ => ?_⟩, rfl, rfl, rfl, rfl, rfl, fun k hk => ⟨?_, ?_, ?_⟩,
      fun h => by simp at h⟩ <;> simp [hn] <;> omega

theorem C13_regu_write_read (I : Interactions) (s : ReguSys) (y : List ℝ) (hy : y.length = s.variableNumber I) :
    ∃ s', s.read I y = .ok s' ∧ s'.write I = y := by
  unfold ReguSys.read
  rw [if_pos hy]
  unfold ReguSys.variableNumber at hy
  have l1 : (loadToCoords y posOffset (velOffset s.P.num)).length = s.P.num := by
    rw [loadToCoords_length]; unfold posOffset velOffset; omega
  have l2 : (loadToCoords y (velOffset s.P.num) (auxOffset s.P.num)).length = s.P.num := by
    rw [loadToCoords_length]; unfold auxOffset velOffset; omega
  simp only [store_ok _ l1, store_ok _ l2, Res.ok_bind]
  have c1 := coords_load y posOffset (velOffset s.P.num) s.P.num (by unfold posOffset velOffset; omega)
    (by unfold posOffset; cases hd : I.velDep <;> rw [hd] at hy <;> simp at hy <;> omega)
  have c2 := coords_load y (velOffset s.P.num) (auxOffset s.P.num) s.P.num (by unfold auxOffset velOffset; omega)
    (by unfold velOffset; cases hd : I.velDep <;> rw [hd] at hy <;> simp at hy <;> omega)
  have e0 : ∀ (f old : Arr (V3 ℝ)), coords s.P.num (fun k => if k < s.P.num then f k else old k) = coords s.P.num f :=
    fun f old => coords_congr fun k hk => by simp [hk]
  have hpre : [y.getD 0 0] ++ (y.drop posOffset).take (3 * s.P.num) ++ (y.drop (velOffset s.P.num)).take (3 * s.P.num)
      = y.take (1 + 3 * s.P.num + 3 * s.P.num) := by
    rw [take_one (by omega)]
    unfold posOffset velOffset
    rw [← List.take_add, show s.P.num * 3 + 1 = 1 + 3 * s.P.num by omega, ← List.take_add]
  have htail : ∀ m, y.length = m + 2 → y.take m ++ [y.getD m 0, y.getD (m + 1) 0] = y := by
    intro m hm
    conv_rhs => rw [← List.take_append_drop m y]
    congr 1
    apply List.ext_getElem
    · simp; omega
    · intro i h1 h2
      have : i = 0 ∨ i = 1 := by simp at h1; omega
      rcases this with rfl | rfl
      · rw [List.getElem_drop]; simp
        rw [List.getElem?_eq_getElem (by omega)]; rfl
      · rw [List.getElem_drop]; simp
        rw [List.getElem?_eq_getElem (by omega)]; rfl
  cases hd : I.velDep
  · refine ⟨_, rfl, ?_⟩
    rw [ReguSys.write_eq, hd]
    simp only [e0, Bool.false_eq_true, if_false, List.append_nil]
    rw [c1, c2, hpre]
    rw [hd] at hy; simp at hy
    have := htail (1 + 3 * s.P.num + 3 * s.P.num) (by omega)
    have q1 : omegaOffset s.P.num false = 1 + 3 * s.P.num + 3 * s.P.num := by unfold omegaOffset; simp; omega
    have q2 : bindEOffset s.P.num false = 1 + 3 * s.P.num + 3 * s.P.num + 1 := by unfold bindEOffset; simp; omega
    rw [q1, q2]; exact this
  · rw [hd] at hy
    simp at hy
    have l3 : (loadToCoords y (auxOffset s.P.num) y.length).length = s.P.num := by
      rw [loadToCoords_length]; unfold auxOffset; omega
    simp only [if_true, store_ok _ l3, Res.ok_bind]
    refine ⟨_, rfl, ?_⟩
    rw [ReguSys.write_eq, hd]
    simp only [e0, if_true]
    have c3 := coords_load y (auxOffset s.P.num) y.length s.P.num (by unfold auxOffset; omega) (by unfold auxOffset; omega)
    rw [c1, c2, c3, hpre]
    have := htail (1 + 3 * s.P.num + 3 * s.P.num + 3 * s.P.num) (by omega)
    have q1 : omegaOffset s.P.num true = 1 + 3 * s.P.num + 3 * s.P.num + 3 * s.P.num := by unfold omegaOffset; simp; omega
    have q2 : bindEOffset s.P.num true = 1 + 3 * s.P.num + 3 * s.P.num + 3 * s.P.num + 1 := by unfold bindEOffset; simp; omega
    unfold auxOffset
    rw [show s.P.num * 6 + 1 = 1 + 3 * s.P.num + 3 * s.P.num by omega, ← List.take_add, q1, q2]; exact this

theorem C13_regu_abort (I : Interactions) (s : ReguSys) (y : List ℝ) (hy : y.length ≠ s.variableNumber I) :
    s.read I y = .abort := by
  unfold ReguSys.read; rw [if_neg hy]

/-! ### the chain systems: the plain layout applied to the chain coordinates -/

/-- interactions of which only `ext_vel_dep` matters -/
def flagI (b : Bool) : Interactions :=
  { internal := ⟨false, fun _ a => a⟩, extra := if b then [⟨true, fun _ a => a⟩] else [] }

theorem flagI_velDep (b : Bool) : (flagI b).velDep = b := by cases b <;> rfl

/-- the chain coordinates of a `ChainSystem`, in the shape of a plain system -/
def ChainSys.asSimple (s : ChainSys) : Simple :=
  { P := { s.P with pos := s.cpos, vel := s.cvel }, time := s.time, aux := s.caux, inc := s.inc, sync := s.sync }

/-- the chain coordinates of an `ARchainSystem`, in the shape of a plain regularised system -/
def ARSys.asRegu (s : ARSys) : ReguSys :=
  { P := { s.P with pos := s.cpos, vel := s.cvel }, time := s.time, aux := s.caux, R := s.R, inc := s.inc, sync := s.sync }

theorem ChainSys.write_asSimple (I : ChainInteractions) (s : ChainSys) : s.write I = s.asSimple.write (flagI I.velDep) := by
  unfold ChainSys.write Simple.write
  rw [flagI_velDep]; rfl

theorem ARSys.write_asRegu (I : ChainInteractions) (s : ARSys) : s.write I = s.asRegu.write (flagI I.velDep) := by
  unfold ARSys.write ReguSys.write
  rw [flagI_velDep]; rfl

theorem ChainSys.variableNumber_asSimple (I : ChainInteractions) (s : ChainSys) :
    s.variableNumber I = s.asSimple.variableNumber (flagI I.velDep) := by
  unfold ChainSys.variableNumber Simple.variableNumber; rw [flagI_velDep]; rfl

theorem ARSys.variableNumber_asRegu (I : ChainInteractions) (s : ARSys) :
    s.variableNumber I = s.asRegu.variableNumber (flagI I.velDep) := by
  unfold ARSys.variableNumber ReguSys.variableNumber; rw [flagI_velDep]; rfl

/-- the Cartesian state recomputed from the chain coordinates of `t` -/
def ChainSys.fill (I : ChainInteractions) (s : ChainSys) (t : Simple) : Res ChainSys := do
  let pos ← Chain.toCartesian s.P.num t.P.pos s.P.pos s.index
  let vel ← Chain.toCartesian s.P.num t.P.vel s.P.vel s.index
  let aux ← if I.velDep then Chain.toCartesian s.P.num t.aux s.aux s.index else .ok s.aux
  .ok { s with time := t.time, cpos := t.P.pos, cvel := t.P.vel, caux := t.aux, aux := aux,
               P := { s.P with pos := pos, vel := vel } }

def ARSys.fill (I : ChainInteractions) (s : ARSys) (t : ReguSys) : Res ARSys := do
  let pos ← Chain.toCartesian s.P.num t.P.pos s.P.pos s.index
  let vel ← Chain.toCartesian s.P.num t.P.vel s.P.vel s.index
  let aux ← if I.velDep then Chain.toCartesian s.P.num t.aux s.aux s.index else .ok s.aux
  .ok { s with time := t.time, cpos := t.P.pos, cvel := t.P.vel, caux := t.aux, aux := aux,
               P := { s.P with pos := pos, vel := vel }, R := t.R }

theorem ChainSys.read_eq (I : ChainInteractions) (s : ChainSys) (y : List ℝ) (hy : y.length = s.variableNumber I) :
    s.read I y = (s.asSimple.read (flagI I.velDep) y) >>= s.fill I := by
  have hy' := hy
  rw [ChainSys.variableNumber_asSimple] at hy'
  unfold ChainSys.read Simple.read
  rw [if_pos hy, if_pos hy']
  unfold ChainSys.variableNumber at hy
  have l1 : (loadToCoords y posOffset (velOffset s.P.num)).length = s.P.num := by
    rw [loadToCoords_length]; unfold posOffset velOffset; omega
  have l2 : (loadToCoords y (velOffset s.P.num) (auxOffset s.P.num)).length = s.P.num := by
    rw [loadToCoords_length]; unfold auxOffset velOffset; omega
  simp only [ChainSys.asSimple, store_ok _ l1, store_ok _ l2, Res.ok_bind, flagI_velDep]
  by_cases h0 : s.P.num = 0
  · cases hd : I.velDep
    · simp [ChainSys.fill, Chain.toCartesian, h0]
    · rw [hd] at hy; simp [h0] at hy
      simp [ChainSys.fill, Chain.toCartesian, h0, store, loadToCoords, auxOffset, hy]
  · cases hd : I.velDep
    · simp [ChainSys.fill, Chain.toCartesian, h0, hd]
    · rw [hd] at hy
      simp at hy
      have l3 : (loadToCoords y (auxOffset s.P.num) y.length).length = s.P.num := by
        rw [loadToCoords_length]; unfold auxOffset; omega
      simp only [if_true, store_ok _ l3, Res.ok_bind]
      simp [ChainSys.fill, Chain.toCartesian, h0, hd]

theorem ARSys.read_eq (I : ChainInteractions) (s : ARSys) (y : List ℝ) (hy : y.length = s.variableNumber I) :
    s.read I y = (s.asRegu.read (flagI I.velDep) y) >>= s.fill I := by
  have hy' := hy
  rw [ARSys.variableNumber_asRegu] at hy'
  unfold ARSys.read ReguSys.read
  rw [if_pos hy, if_pos hy']
  unfold ARSys.variableNumber at hy
  have l1 : (loadToCoords y posOffset (velOffset s.P.num)).length = s.P.num := by
    rw [loadToCoords_length]; unfold posOffset velOffset; omega
  have l2 : (loadToCoords y (velOffset s.P.num) (auxOffset s.P.num)).length = s.P.num := by
    rw [loadToCoords_length]; unfold auxOffset velOffset; omega
  simp only [ARSys.asRegu, store_ok _ l1, store_ok _ l2, Res.ok_bind, flagI_velDep]
  by_cases h0 : s.P.num = 0
  · cases hd : I.velDep
    · simp [ARSys.fill, Chain.toCartesian, h0]
    · rw [hd] at hy; simp [h0] at hy
      simp [ARSys.fill, Chain.toCartesian, h0, store, loadToCoords, auxOffset, hy]
  · cases hd : I.velDep
    · simp [ARSys.fill, Chain.toCartesian, h0, hd]
    · rw [hd] at hy
      simp at hy
      have l3 : (loadToCoords y (auxOffset s.P.num) y.length).length = s.P.num := by
        rw [loadToCoords_length]; unfold auxOffset; omega
      simp only [if_true, store_ok _ l3, Res.ok_bind]
      simp [ARSys.fill, Chain.toCartesian, h0, hd]

/-- A chain system whose Cartesian positions, velocities and (when present) auxiliary velocities are the ones its
chain coordinates describe. -/
structure ChainConsistent (velDep : Bool) (n : Nat) (idx : Arr Nat) (cpos cvel caux pos vel aux : Arr (V3 ℝ)) : Prop where
  num : n ≠ 0
  index : IsIndex n idx
  pos : BelongsTo n idx cpos pos
  vel : BelongsTo n idx cvel vel
  aux : velDep = true → BelongsTo n idx caux aux

theorem C13_chain_size (I : ChainInteractions) (s : ChainSys) : (s.write I).length = s.variableNumber I := by
  rw [ChainSys.write_asSimple, C13_simple_size, ChainSys.variableNumber_asSimple]

theorem C13_archain_size (I : ChainInteractions) (s : ARSys) : (s.write I).length = s.variableNumber I := by
  rw [ARSys.write_asRegu, C13_regu_size, ARSys.variableNumber_asRegu]

/-- Reading into `s0` what the consistent chain system `s` wrote, when both use the same chain, gives `s0` the time, the
chain coordinates and the Cartesian coordinates of `s` and changes nothing else. -/
theorem C13_chain_read_write (I : ChainInteractions) (s0 s : ChainSys) (hn : s0.P.num = s.P.num)
    (hidx : s0.index = s.index)
    (hc : ChainConsistent I.velDep s.P.num s.index s.cpos s.cvel s.caux s.P.pos s.P.vel s.aux) :
    ∃ s', s0.read I (s.write I) = .ok s' ∧ s'.time = s.time ∧ s'.index = s.index ∧
      (∀ k, k < s.P.num → s'.P.pos k = s.P.pos k ∧ s'.P.vel k = s.P.vel k ∧
        (I.velDep = true → s'.aux k = s.aux k)) ∧
      (∀ k, k < s.P.num → s'.cpos k = s.cpos k ∧ s'.cvel k = s.cvel k ∧
        (I.velDep = true → s'.caux k = s.caux k)) ∧
      s'.P.num = s0.P.num ∧ s'.P.mass = s0.P.mass ∧ s'.inc = s0.inc ∧ s'.sync = s0.sync ∧
      (∀ k, s.P.num ≤ k → s'.P.pos k = s0.P.pos k ∧ s'.P.vel k = s0.P.vel k ∧ s'.aux k = s0.aux k) ∧
      (I.velDep = false → s'.aux = s0.aux ∧ s'.caux = s0.caux) := by
  have hlen : (s.write I).length = s0.variableNumber I := by
    rw [C13_chain_size]; unfold ChainSys.variableNumber; rw [hn]
  rw [ChainSys.read_eq I s0 _ hlen, ChainSys.write_asSimple]
  obtain ⟨t, ht, h1, h2, h3, h4, h5, h6, h7, h8⟩ := C13_simple_read_write (flagI I.velDep) s0.asSimple s.asSimple hn
  rw [ht, Res.ok_bind]
  have q : ∀ k, k < s.P.num → t.P.pos k = s.cpos k ∧ t.P.vel k = s.cvel k ∧ (I.velDep = true → t.aux k = s.caux k) := by
    intro k hk
    have := h2 k hk
    rw [flagI_velDep] at this
    exact this
  have b1 : BelongsTo s.P.num s.index t.P.pos s.P.pos :=
    belongs_congr hc.num hc.index (fun k hk => (q k hk).1.symm) (fun _ _ => rfl) hc.pos
  have b2 : BelongsTo s.P.num s.index t.P.vel s.P.vel :=
    belongs_congr hc.num hc.index (fun k hk => (q k hk).2.1.symm) (fun _ _ => rfl) hc.vel
  unfold ChainSys.fill
  rw [hn, hidx, toCartesian_belongs hc.num hc.index _ _ _ b1, toCartesian_belongs hc.num hc.index _ _ _ b2]
  cases hd : I.velDep
  · simp only [Res.ok_bind, Bool.false_eq_true, if_false]
    refine ⟨_, rfl, h1, rfl, fun k hk => ⟨by simp [hk], by simp [hk], fun h => by simp at h⟩,
      fun k hk => ⟨(q k hk).1, (q k hk).2.1, fun h => by simp at h⟩, hn ▸ rfl, rfl, rfl, rfl, fun k hk => ⟨?_, ?_, rfl⟩,
      fun _ => ⟨rfl, h8 (by rw [flagI_velDep]; exact hd)⟩⟩ <;> simp <;> omega
  · have b3 : BelongsTo s.P.num s.index t.aux s.aux :=
      belongs_congr hc.num hc.index (fun k hk => ((q k hk).2.2 hd).symm) (fun _ _ => rfl) (hc.aux hd)
    simp only [if_true, toCartesian_belongs hc.num hc.index _ _ _ b3, Res.ok_bind]
    refine ⟨_, rfl, h1, rfl, fun k hk => ⟨by simp [hk], by simp [hk], fun _ => by simp [hk]⟩,
      fun k hk => ⟨(q k hk).1, (q k hk).2.1, fun _ => (q k hk).2.2 hd⟩, hn ▸ rfl, rfl, rfl, rfl,
      fun k hk => ⟨?_, ?_, ?_⟩, fun h => by simp at h⟩ <;> simp <;> omega

/-- As `C13_chain_read_write`, together with the regularisation variables. -/
theorem C13_archain_read_write (I : ChainInteractions) (s0 s : ARSys) (hn : s0.P.num = s.P.num)
    (hidx : s0.index = s.index)
    (hc : ChainConsistent I.velDep s.P.num s.index s.cpos s.cvel s.caux s.P.pos s.P.vel s.aux) :
    ∃ s', s0.read I (s.write I) = .ok s' ∧ s'.time = s.time ∧ s'.R.omega = s.R.omega ∧ s'.R.bindE = s.R.bindE ∧
      s'.index = s.index ∧
      (∀ k, k < s.P.num → s'.P.pos k = s.P.pos k ∧ s'.P.vel k = s.P.vel k ∧
        (I.velDep = true → s'.aux k = s.aux k)) ∧
      (∀ k, k < s.P.num → s'.cpos k = s.cpos k ∧ s'.cvel k = s.cvel k ∧
        (I.velDep = true → s'.caux k = s.caux k)) ∧
      s'.P.num = s0.P.num ∧ s'.P.mass = s0.P.mass ∧ s'.inc = s0.inc ∧ s'.sync = s0.sync ∧ s'.R.scale = s0.R.scale ∧
      (∀ k, s.P.num ≤ k → s'.P.pos k = s0.P.pos k ∧ s'.P.vel k = s0.P.vel k ∧ s'.aux k = s0.aux k) ∧
      (I.velDep = false → s'.aux = s0.aux ∧ s'.caux = s0.caux) := by
  have hlen : (s.write I).length = s0.variableNumber I := by
    rw [C13_archain_size]; unfold ARSys.variableNumber; rw [hn]
  rw [ARSys.read_eq I s0 _ hlen, ARSys.write_asRegu]
  obtain ⟨t, ht, h1, hom, hbe, h2, h3, h4, h5, h6, hsc, h7, h8⟩ :=
    C13_regu_read_write (flagI I.velDep) s0.asRegu s.asRegu hn
  rw [ht, Res.ok_bind]
  have q : ∀ k, k < s.P.num → t.P.pos k = s.cpos k ∧ t.P.vel k = s.cvel k ∧ (I.velDep = true → t.aux k = s.caux k) := by
    intro k hk
    have := h2 k hk
    rw [flagI_velDep] at this
    exact this
  have b1 : BelongsTo s.P.num s.index t.P.pos s.P.pos :=
    belongs_congr hc.num hc.index (fun k hk => (q k hk).1.symm) (fun _ _ => rfl) hc.pos
  have b2 : BelongsTo s.P.num s.index t.P.vel s.P.vel :=
    belongs_congr hc.num hc.index (fun k hk => (q k hk).2.1.symm) (fun _ _ => rfl) hc.vel
  unfold ARSys.fill
  rw [hn, hidx, toCartesian_belongs hc.num hc.index _ _ _ b1, toCartesian_belongs hc.num hc.index _ _ _ b2]
  cases hd : I.velDep
  · simp only [Res.ok_bind, Bool.false_eq_true, if_false]
    refine ⟨_, rfl, h1, hom, hbe, rfl, fun k hk => ⟨by simp [hk], by simp [hk], fun h => by simp at h⟩,
      fun k hk => ⟨(q k hk).1, (q k hk).2.1, fun h => by simp at h⟩, hn ▸ rfl, rfl, rfl, rfl, hsc, fun k hk => ⟨?_, ?_, rfl⟩,
      fun _ => ⟨rfl, h8 (by rw [flagI_velDep]; exact hd)⟩⟩ <;> simp <;> omega
  · have b3 : BelongsTo s.P.num s.index t.aux s.aux :=
      belongs_congr hc.num hc.index (fun k hk => ((q k hk).2.2 hd).symm) (fun _ _ => rfl) (hc.aux hd)
    simp only [if_true, toCartesian_belongs hc.num hc.index _ _ _ b3, Res.ok_bind]
    refine ⟨_, rfl, h1, hom, hbe, rfl, fun k hk => ⟨by simp [hk], by simp [hk], fun _ => by simp [hk]⟩,
      fun k hk => ⟨(q k hk).1, (q k hk).2.1, fun _ => (q k hk).2.2 hd⟩, hn ▸ rfl, rfl, rfl, rfl, hsc,
      fun k hk => ⟨?_, ?_, ?_⟩, fun h => by simp at h⟩ <;> simp <;> omega

theorem toCartesian_ok {n : Nat} {idx : Arr Nat} (hn : n ≠ 0) (hi : IsIndex n idx) (chain old : Arr (V3 ℝ)) :
    ∃ c, Chain.toCartesian n chain old idx = .ok c ∧ BelongsTo n idx chain c := by
  obtain ⟨c, h, h0, hs, _⟩ := Chain.toCartesian_spec hn chain old idx hi
  refine ⟨c, h, ⟨fun i hi => ?_, h0.symm⟩⟩
  rw [hs i hi]; abel

/-- Writing after reading an array of the right length gives the array back, and the loaded state is consistent. -/
theorem C13_chain_write_read (I : ChainInteractions) (s : ChainSys) (hn : s.P.num ≠ 0) (hi : IsIndex s.P.num s.index)
    (y : List ℝ) (hy : y.length = s.variableNumber I) :
    ∃ s', s.read I y = .ok s' ∧ s'.write I = y ∧
      ChainConsistent I.velDep s.P.num s.index s'.cpos s'.cvel s'.caux s'.P.pos s'.P.vel s'.aux := by
  rw [ChainSys.read_eq I s y hy]
  obtain ⟨t, ht, hw⟩ := C13_simple_write_read (flagI I.velDep) s.asSimple y
    (by rw [hy, ChainSys.variableNumber_asSimple])
  have hnum : t.P.num = s.P.num := by
    unfold Simple.read at ht
    split at ht
    · simp only [Res.bind_eq_ok] at ht
      obtain ⟨a, _, b, _, h⟩ := ht
      split at h
      · obtain ⟨c, _, h⟩ := Res.bind_eq_ok.1 h
        cases h; rfl
      · cases h; rfl
    · simp at ht
  obtain ⟨p, hp, bp⟩ := toCartesian_ok hn hi t.P.pos s.P.pos
  obtain ⟨v, hv, bv⟩ := toCartesian_ok hn hi t.P.vel s.P.vel
  obtain ⟨a, ha, ba⟩ := toCartesian_ok hn hi t.aux s.aux
  rw [ht, Res.ok_bind]
  unfold ChainSys.fill
  rw [hp, hv]
  rw [Simple.write_eq, flagI_velDep] at hw
  cases hd : I.velDep
  · simp only [Res.ok_bind, Bool.false_eq_true, if_false]
    refine ⟨_, rfl, ?_, ⟨hn, hi, bp, bv, fun h => by simp at h⟩⟩
    rw [ChainSys.write_asSimple, Simple.write_eq, flagI_velDep, ← hw, hnum, hd]; rfl
  · simp only [if_true, ha, Res.ok_bind]
    refine ⟨_, rfl, ?_, ⟨hn, hi, bp, bv, fun _ => ba⟩⟩
    rw [ChainSys.write_asSimple, Simple.write_eq, flagI_velDep, ← hw, hnum, hd]; rfl

theorem C13_archain_write_read (I : ChainInteractions) (s : ARSys) (hn : s.P.num ≠ 0) (hi : IsIndex s.P.num s.index)
    (y : List ℝ) (hy : y.length = s.variableNumber I) :
    ∃ s', s.read I y = .ok s' ∧ s'.write I = y ∧
      ChainConsistent I.velDep s.P.num s.index s'.cpos s'.cvel s'.caux s'.P.pos s'.P.vel s'.aux := by
  rw [ARSys.read_eq I s y hy]
  obtain ⟨t, ht, hw⟩ := C13_regu_write_read (flagI I.velDep) s.asRegu y
    (by rw [hy, ARSys.variableNumber_asRegu])
  have hnum : t.P.num = s.P.num := by
    unfold ReguSys.read at ht
    split at ht
    · simp only [Res.bind_eq_ok] at ht
      obtain ⟨a, _, b, _, h⟩ := ht
      split at h
      · obtain ⟨c, _, h⟩ := Res.bind_eq_ok.1 h
        cases h; rfl
      · cases h; rfl
    · simp at ht
  obtain ⟨p, hp, bp⟩ := toCartesian_ok hn hi t.P.pos s.P.pos
  obtain ⟨v, hv, bv⟩ := toCartesian_ok hn hi t.P.vel s.P.vel
  obtain ⟨a, ha, ba⟩ := toCartesian_ok hn hi t.aux s.aux
  rw [ht, Res.ok_bind]
  unfold ARSys.fill
  rw [hp, hv]
  rw [ReguSys.write_eq, flagI_velDep] at hw
  cases hd : I.velDep
  · simp only [Res.ok_bind, Bool.false_eq_true, if_false]
    refine ⟨_, rfl, ?_, ⟨hn, hi, bp, bv, fun h => by simp at h⟩⟩
    rw [ARSys.write_asRegu, ReguSys.write_eq, flagI_velDep, ← hw, hnum, hd]; rfl
  · simp only [if_true, ha, Res.ok_bind]
    refine ⟨_, rfl, ?_, ⟨hn, hi, bp, bv, fun _ => ba⟩⟩
    rw [ARSys.write_asRegu, ReguSys.write_eq, flagI_velDep, ← hw, hnum, hd]; rfl

theorem C13_chain_abort (I : ChainInteractions) (s : ChainSys) (y : List ℝ) (hy : y.length ≠ s.variableNumber I) :
    s.read I y = .abort := by
  unfold ChainSys.read; rw [if_neg hy]

theorem C13_archain_abort (I : ChainInteractions) (s : ARSys) (y : List ℝ) (hy : y.length ≠ s.variableNumber I) :
    s.read I y = .abort := by
  unfold ARSys.read; rw [if_neg hy]

/-- The hypotheses are met by a chain of three particles along 2-0-1. -/
example : ∃ (n : Nat) (idx : Arr Nat) (c x : Arr (V3 ℝ)), ChainConsistent false n idx c c c x x x ∧ idx 0 = 2 := by
  refine ⟨3, fun i => if i = 0 then 2 else if i = 1 then 0 else 1,
    fun i => if i = 0 then ⟨0, -2, 0⟩ else if i = 1 then ⟨1, 0, 0⟩ else ⟨0, 2, 0⟩,
    fun i => if i = 0 then ⟨0, 0, 0⟩ else if i = 1 then ⟨1, 0, 0⟩ else ⟨0, 2, 0⟩, ?_, rfl⟩
  have hb : BelongsTo 3 (fun i => if i = 0 then 2 else if i = 1 then 0 else 1)
      (fun i => if i = 0 then (⟨0, -2, 0⟩ : V3 ℝ) else if i = 1 then ⟨1, 0, 0⟩ else ⟨0, 2, 0⟩)
      (fun i => if i = 0 then ⟨0, 0, 0⟩ else if i = 1 then ⟨1, 0, 0⟩ else ⟨0, 2, 0⟩) := by
    constructor
    · intro i hi
      have : i = 0 ∨ i = 1 := by omega
      rcases this with rfl | rfl <;> simp <;> ext <;> simp
    · simp
  refine ⟨by decide, ⟨?_, ?_⟩, hb, hb, fun h => by simp at h⟩
  · intro i hi
    have : i = 0 ∨ i = 1 ∨ i = 2 := by omega
    rcases this with rfl | rfl | rfl <;> simp
  · intro i j hi hj h
    have h1 : i = 0 ∨ i = 1 ∨ i = 2 := by omega
    have h2 : j = 0 ∨ j = 1 ∨ j = 2 := by omega
    rcases h1 with rfl | rfl | rfl <;> rcases h2 with rfl | rfl | rfl <;> simp at h ⊢

end SpaceHub.Sys
