import Verif.Model.Integrator
import Verif.Proof.Core
import Verif.Proof.ChainCoord

set_option autoImplicit false

namespace SpaceHub.Sys
open SpaceHub V3 Force Core Finset

/-! ### arrays -/

theorem forLoop_set (n : Nat) (f : Nat → V3 ℝ → V3 ℝ) (v : Arr (V3 ℝ)) (k : Nat) :
    forLoop 0 n (fun i v => v.set i (f i (v i))) v k = if k < n then f k (v k) else v k := by
  have := forLoop_inv (σ := Arr (V3 ℝ)) (fun m w => ∀ k, w k = if k < m then f k (v k) else v k) 0 n (Nat.zero_le _)
    (fun i v => v.set i (f i (v i))) v (by intro k; simp)
    (by
      intro i t _ hi h k
      by_cases hk : k = i
      · subst hk; simp [h k]
      · rw [Arr.set_other _ _ _ _ hk, h k]
        have : (k < i + 1) ↔ (k < i) := by omega
        simp [this])
  exact this k

theorem advance_apply (n : Nat) (v inc : Arr (V3 ℝ)) (h : ℝ) (k : Nat) :
    advance n v inc h k = if k < n then v k + h • inc k else v k := by
  unfold advance; exact forLoop_set n (fun i x => x + h • inc i) v k

theorem arrayAdd_apply (n : Nat) (a b : Arr (V3 ℝ)) (k : Nat) :
    arrayAdd n a b k = if k < n then a k + b k else 0 := by
  unfold arrayAdd; exact forLoop_set n (fun i _ => a i + b i) _ k

theorem advance_advance (n : Nat) (v inc : Arr (V3 ℝ)) (h h' : ℝ) :
    advance n (advance n v inc h) inc h' = advance n v inc (h + h') := by
  funext k
  simp only [advance_apply]
  by_cases hk : k < n
  · simp only [hk, if_true, add_smul, add_assoc]
  · simp [hk]

theorem advance_zero (n : Nat) (v inc : Arr (V3 ℝ)) : advance n v inc 0 = v := by
  funext k; simp [advance_apply]

theorem advance_neg (n : Nat) (v inc : Arr (V3 ℝ)) (h : ℝ) : advance n (advance n v inc h) inc (-h) = v := by
  rw [advance_advance, add_neg_cancel, advance_zero]

/-- Only the entries of `inc` below `n` matter. -/
theorem advance_congr {n : Nat} {v inc inc' : Arr (V3 ℝ)} (h : ℝ) (e : ∀ k, k < n → inc k = inc' k) :
    advance n v inc h = advance n v inc' h := by
  funext k
  simp only [advance_apply]
  by_cases hk : k < n
  · simp [hk, e k hk]
  · simp [hk]

/-! ### flat layout -/

/-- component `c` of a vector -/
def comp (v : V3 ℝ) (c : Nat) : ℝ := if c = 0 then v.x else if c = 1 then v.y else v.z

/-- the flat list of the coordinates of `n` vectors -/
def coords (n : Nat) (v : Arr (V3 ℝ)) : List ℝ := (List.range n).flatMap fun i => [(v i).x, (v i).y, (v i).z]

theorem coords_length (n : Nat) (v : Arr (V3 ℝ)) : (coords n v).length = 3 * n := by
  unfold coords
  induction n with
  | zero => rfl
  | succ n ih => rw [List.range_succ, List.flatMap_append, List.length_append, ih]; simp; omega

theorem coords_succ (n : Nat) (v : Arr (V3 ℝ)) : coords (n + 1) v = coords n v ++ [(v n).x, (v n).y, (v n).z] := by
  unfold coords; rw [List.range_succ, List.flatMap_append]; simp

theorem coords_getD (n : Nat) (v : Arr (V3 ℝ)) (j : Nat) :
    (coords n v).getD j 0 = if j < 3 * n then comp (v (j / 3)) (j % 3) else 0 := by
  induction n with
  | zero => simp [coords]
  | succ n ih =>
    rw [coords_succ]
    rcases Nat.lt_or_ge j (3 * n) with h | h
    · rw [List.getD_append _ _ _ _ (by rw [coords_length]; exact h), ih]
      rw [if_pos h, if_pos (by omega)]
    · rw [List.getD_append_right _ _ _ _ (by rw [coords_length]; exact h), coords_length]
      rcases Nat.lt_or_ge j (3 * (n + 1)) with h' | h'
      · rw [if_pos h']
        have e : j / 3 = n := by omega
        have : j - 3 * n = 0 ∨ j - 3 * n = 1 ∨ j - 3 * n = 2 := by omega
        rcases this with h1 | h1 | h1
        · have : j % 3 = 0 := by omega
          rw [h1, e, this]; rfl
        · have : j % 3 = 1 := by omega
          rw [h1, e, this]; rfl
        · have : j % 3 = 2 := by omega
          rw [h1, e, this]; rfl
      · rw [if_neg (by omega), List.getD_eq_default]
        simp; omega

theorem addCoordsTo_eq (y : List ℝ) (n : Nat) (v : Arr (V3 ℝ)) : addCoordsTo y n v = y ++ coords n v := by
  unfold addCoordsTo
  have := forLoop_inv (σ := List ℝ) (fun m l => l = y ++ coords m v) 0 n (Nat.zero_le _)
    (fun i y => y ++ [(v i).x] ++ [(v i).y] ++ [(v i).z]) y (by simp [coords])
    (by rintro i t _ _ rfl; rw [coords_succ]; simp)
  exact this

theorem addScaledCoordsTo_eq (y : List ℝ) (n : Nat) (v : Arr (V3 ℝ)) (c : ℝ) :
    addScaledCoordsTo y n v c = y ++ coords n (fun k => c • v k) := by
  rw [← addCoordsTo_eq]; rfl

theorem coords_congr {n : Nat} {v w : Arr (V3 ℝ)} (h : ∀ k, k < n → v k = w k) : coords n v = coords n w := by
  unfold coords
  apply List.flatMap_congr
  intro i hi
  rw [h i (List.mem_range.1 hi)]

theorem advanceScaled_apply (inc : Arr ℝ) (off n : Nat) (v : Arr (V3 ℝ)) (h : ℝ) (k : Nat) :
    advanceScaledCoordsTo inc off n v h k =
      if off ≤ k ∧ k < off + 3 * n then inc k + comp (v ((k - off) / 3)) ((k - off) % 3) * h else inc k := by
  unfold advanceScaledCoordsTo
  have := forLoop_inv (σ := Arr ℝ) (fun m w => ∀ k, w k =
      if off ≤ k ∧ k < off + 3 * m then inc k + comp (v ((k - off) / 3)) ((k - off) % 3) * h else inc k)
    0 n (Nat.zero_le _)
    (fun i inc =>
      let inc := inc.set (off + 3 * i) (inc (off + 3 * i) + (v i).x * h)
      let inc := inc.set (off + 3 * i + 1) (inc (off + 3 * i + 1) + (v i).y * h)
      inc.set (off + 3 * i + 2) (inc (off + 3 * i + 2) + (v i).z * h)) inc
    (by intro k; rw [if_neg (by omega)])
    (by
      intro i t _ hi ht k
      have e0 : t (off + 3 * i) = inc (off + 3 * i) := by rw [ht, if_neg (by omega)]
      have e1 : t (off + 3 * i + 1) = inc (off + 3 * i + 1) := by rw [ht, if_neg (by omega)]
      have e2 : t (off + 3 * i + 2) = inc (off + 3 * i + 2) := by rw [ht, if_neg (by omega)]
      simp only [Arr.set]
      by_cases c2 : k = off + 3 * i + 2
      · subst c2
        rw [if_pos rfl, if_neg (by omega), if_neg (by omega), e2, if_pos (by omega)]
        have d : (off + 3 * i + 2 - off) / 3 = i := by omega
        have m : (off + 3 * i + 2 - off) % 3 = 2 := by omega
        rw [d, m]; rfl
      · rw [if_neg c2]
        by_cases c1 : k = off + 3 * i + 1
        · subst c1
          rw [if_pos rfl, if_neg (by omega), e1, if_pos (by omega)]
          have d : (off + 3 * i + 1 - off) / 3 = i := by omega
          have m : (off + 3 * i + 1 - off) % 3 = 1 := by omega
          rw [d, m]; rfl
        · rw [if_neg c1]
          by_cases c0 : k = off + 3 * i
          · subst c0
            rw [if_pos rfl, e0, if_pos (by omega)]
            have d : (off + 3 * i - off) / 3 = i := by omega
            have m : (off + 3 * i - off) % 3 = 0 := by omega
            rw [d, m]; rfl
          · rw [if_neg c0, ht]
            by_cases hr : off ≤ k ∧ k < off + 3 * i
            · rw [if_pos hr, if_pos (by omega)]
            · rw [if_neg hr, if_neg (by omega)])
  exact this k

theorem comp_add (a b : V3 ℝ) (c : Nat) : comp (a + b) c = comp a c + comp b c := by
  unfold comp; split_ifs <;> rfl
theorem comp_smul (h : ℝ) (a : V3 ℝ) (c : Nat) : comp (h • a) c = comp a c * h := by
  unfold comp; split_ifs <;> rfl

theorem comp3 (v : V3 ℝ) : v = ⟨comp v 0, comp v 1, comp v 2⟩ := rfl

/-- `load_to_coords` after a prefix of length `b` gives back the vectors packed there. -/
theorem load_coords (pre post : List ℝ) (n : Nat) (v : Arr (V3 ℝ)) (b e : Nat) (hb : pre.length = b)
    (he : (e - b) / 3 = n) : loadToCoords (pre ++ coords n v ++ post) b e = (List.range n).map v := by
  unfold loadToCoords
  rw [he]
  apply List.map_congr_left
  intro i hi
  have hi := List.mem_range.1 hi
  have key : ∀ c, c < 3 → (pre ++ coords n v ++ post).getD (b + 3 * i + c) 0 = comp (v i) c := by
    intro c hc
    rw [List.append_assoc, List.getD_append_right _ _ _ _ (by omega), List.getD_append _ _ _ _ (by rw [coords_length]; omega),
      coords_getD, if_pos (by omega)]
    have d : (b + 3 * i + c - pre.length) / 3 = i := by omega
    have m : (b + 3 * i + c - pre.length) % 3 = c := by omega
    rw [d, m]
  have k0 := key 0 (by omega)
  have k1 := key 1 (by omega)
  have k2 := key 2 (by omega)
  rw [Nat.add_zero] at k0
  rw [k0, k1, k2]; rfl

theorem loadToCoords_length (y : List ℝ) (b e : Nat) : (loadToCoords y b e).length = (e - b) / 3 := by
  simp [loadToCoords]

theorem loadToCoords_getD (y : List ℝ) (b e : Nat) (i : Nat) (hi : i < (e - b) / 3) :
    (loadToCoords y b e).getD i 0 = ⟨y.getD (b + 3 * i) 0, y.getD (b + 3 * i + 1) 0, y.getD (b + 3 * i + 2) 0⟩ := by
  unfold loadToCoords
  rw [List.getD_eq_getElem _ _ (by simpa using hi)]
  simp

/-- packing what was loaded gives the slice of the array -/
theorem coords_load (y : List ℝ) (b e n : Nat) (he : (e - b) / 3 = n) (hy : b + 3 * n ≤ y.length) :
    coords n (fun k => (loadToCoords y b e).getD k 0) = (y.drop b).take (3 * n) := by
  apply List.ext_getElem?
  intro j
  rcases Nat.lt_or_ge j (3 * n) with h | h
  · have l1 : j < (coords n (fun k => (loadToCoords y b e).getD k 0)).length := by rw [coords_length]; exact h
    have l2 : j < ((y.drop b).take (3 * n)).length := by simp; omega
    rw [List.getElem?_eq_getElem l1, List.getElem?_eq_getElem l2]
    congr 1
    rw [← List.getD_eq_getElem _ (0 : ℝ) l1, coords_getD, if_pos h, loadToCoords_getD _ _ _ _ (by omega)]
    rw [List.getElem_take, List.getElem_drop, ← List.getD_eq_getElem _ (0 : ℝ)]
    have : j % 3 = 0 ∨ j % 3 = 1 ∨ j % 3 = 2 := by omega
    rcases this with h1 | h1 | h1
    · rw [h1, show b + j = b + 3 * (j / 3) by omega]; rfl
    · rw [h1, show b + j = b + 3 * (j / 3) + 1 by omega]; rfl
    · rw [h1, show b + j = b + 3 * (j / 3) + 2 by omega]; rfl
  · rw [List.getElem?_eq_none (by rw [coords_length]; exact h), List.getElem?_eq_none (by simp; omega)]

theorem store_map (n : Nat) (v old : Arr (V3 ℝ)) :
    store n ((List.range n).map v) old = .ok (fun k => if k < n then v k else old k) := by
  unfold store
  rw [if_pos (by simp)]
  congr 1
  funext k
  by_cases hk : k < n
  · simp [hk]
  · simp [hk]

theorem store_ok {n : Nat} {l : List (V3 ℝ)} (old : Arr (V3 ℝ)) (h : l.length = n) :
    store n l old = .ok (fun k => if k < n then l.getD k 0 else old k) := by
  unfold store; rw [if_pos h]

/-! ### Res -/
@[simp] theorem Res.ok_bind {α β : Type} (a : α) (f : α → Res β) : (Res.ok a >>= f) = f a := rfl
@[simp] theorem Res.abort_bind {α β : Type} (f : α → Res β) : ((Res.abort : Res α) >>= f) = .abort := rfl
@[simp] theorem Res.ub_bind {α β : Type} (f : α → Res β) : ((Res.ub : Res α) >>= f) = .ub := rfl
@[simp] theorem Res.nan_bind {α β : Type} (f : α → Res β) : ((Res.nan : Res α) >>= f) = .nan := rfl
@[simp] theorem Res.diverge_bind {α β : Type} (f : α → Res β) : ((Res.diverge : Res α) >>= f) = .diverge := rfl

theorem Res.bind_eq_ok {α β : Type} {x : Res α} {f : α → Res β} {b : β} :
    (x >>= f) = .ok b ↔ ∃ a, x = .ok a ∧ f a = .ok b := by
  cases x <;> simp

end SpaceHub.Sys
