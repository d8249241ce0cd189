import Verif.Proof.RoundedBS

/-
What rounding does to a Bulirsch-Stoer step.
-/

set_option autoImplicit false

namespace SpaceHub.Rounded
open SpaceHub V3 Force Core Integrator Sys Spec BS BS.Spec Props Converge

/-! ### what is accepted -/

theorem callAll_frame (A : Arith) (ops : List Op) : ∀ s : Simple, Simple.Frame s (callAll A ops s) ∧ (callAll A ops s).sync = s.sync := by
  have one : ∀ (o : Op) (s : Simple), Simple.Frame s (call A s o) ∧ (call A s o).sync = s.sync := by
    intro o s
    cases o with
    | drift h =>
      show Simple.Frame s (driftInc A h s) ∧ (driftInc A h s).sync = s.sync
      unfold driftInc syncClock syncCoords
      dsimp only
      split_ifs <;> exact ⟨⟨rfl, rfl⟩, rfl⟩
    | kick h =>
      show Simple.Frame s (kickInc A h s) ∧ (kickInc A h s).sync = s.sync
      unfold kickInc syncCoords
      dsimp only
      split_ifs <;> exact ⟨⟨rfl, rfl⟩, rfl⟩
  induction ops with
  | nil => exact fun s => ⟨⟨rfl, rfl⟩, rfl⟩
  | cons o l ih =>
    intro s
    obtain ⟨a, b⟩ := one o s
    obtain ⟨c, d⟩ := ih (call A s o)
    exact ⟨a.trans c, d.trans b⟩

/-- the systems a run can start from -/
abbrev FreshFor (s x : Simple) : Prop := FreshOf (simpleSys gravity false) s Simple.Frame (SameSimple gravity) Simple.sync x

theorem system_restores (A : Arith) (kdk : Bool) (s : Simple) :
    RestoresAny (system A kdk) (s.write gravity) (FreshFor s) := by
  have L := simple_lawful gravity false s
  refine ⟨fun x h n y z hx hi hr => ?_⟩
  obtain ⟨f1, s1, w1, _, _⟩ := hx
  have e : callAll A (substeps A kdk h n) x = y := Res.ok.inj hi
  obtain ⟨f2, s2⟩ := callAll_frame A (substeps A kdk h n) x
  rw [e] at f2 s2
  have fy : Simple.Frame s y := f1.trans f2
  obtain ⟨f3, s3, w3⟩ := L.read _ _ _ fy hr
  refine ⟨fy.trans (f3.trans (L.clear_frame _)), ?_, ?_, ?_, ?_⟩
  · exact s3.trans (s2.trans s1)
  · exact w3
  · exact L.clear_same _ (L.restore _ _ fy hr)
  · intro i hi; exact L.clear_inc _ _ (by rw [w3]; exact hi)

theorem write_length (s : Simple) : (s.write gravity).length = 6 * s.P.num + 1 := by
  rw [C13_simple_size]
  show s.P.num * 3 * (2 + 0) + 1 = _
  ring

/-- the new variables of an accepted step -/
noncomputable def fresh (A : Arith) (kdk : Bool) (D k : Nat) (h : ℝ) (s : Simple) (start : Nat → Simple) (i : Nat) : ℝ :=
  A.add ((s.write gravity).getD i 0) (@entry ℝ A.scalar D (fun m => (callAll A (substeps A kdk h (hSeq D m)) (start m)).inc i) k 0)

theorem accepted_write {A : Arith} {kdk : Bool} {p : Params ℝ} {h h' : ℝ} {c c' : State ℝ} {s s' : Simple} (e : bsIterate A kdk p h c s = .ok (s', h', c')) :
    ∃ a k start, @RetriedAny ℝ A.scalar p h a ∧ 1 ≤ k ∧ k ≤ p.maxDepth ∧ (∀ m, FreshFor s (start m)) ∧ s'.P.num = s.P.num ∧ s'.P.mass = s.P.mass ∧
      ∀ i, i < 6 * s.P.num + 1 → (s'.write gravity).getD i 0 = fresh A kdk p.maxDepth k a s start i := by
  have L := simple_lawful gravity false s
  obtain ⟨a, k, _, _, ret, ⟨start, row, T0, T1, hk1, hkD, hrow, hT, _, s'', hread, hs'⟩, _⟩ :=
    @attempts_any ℝ A.scalar Simple (system A kdk) p (s.write gravity) (FreshFor s) (system_restores A kdk s) 100 h c _ (fresh_start L) s' h' c' e
  refine ⟨a, k, fun m => if m ≤ k then start m else (simpleSys gravity false).clear ((simpleSys gravity false).collect true s), ret, hk1, hkD, fun m => ?_, ?_⟩
  · dsimp only
    by_cases hm : m ≤ k
    · rw [if_pos hm]; exact (hrow m hm).1
    · rw [if_neg hm]; exact fresh_start L
  · have rw' : ∀ m, m ≤ k → row m = callAll A (substeps A kdk a (hSeq p.maxDepth m)) (start m) := fun m hm => (Res.ok.inj (hrow m hm).2).symm
    obtain ⟨f1, _⟩ := callAll_frame A (substeps A kdk a (hSeq p.maxDepth k)) (start k)
    rw [← rw' k le_rfl] at f1
    have f2 : Simple.Frame s (row k) := (hrow k le_rfl).1.1.trans f1
    obtain ⟨f3, _, w3⟩ := L.read _ _ _ f2 hread
    have f4 : Simple.Frame s s'' := f2.trans f3
    refine ⟨by rw [hs']; exact f4.1, by rw [hs']; exact f4.2, fun i hi => ?_⟩
    have hi' : i < (s.write gravity).length := by rw [write_length]; exact hi
    have w4 : s'.write gravity = @arrayAdvance ℝ A.scalar (s.write gravity) T0 := by rw [hs']; exact w3
    have g : (s'.write gravity).getD i 0 = A.add ((s.write gravity).getD i 0) (T0 i) := by
      rw [w4, List.getD_eq_getElem _ _ (by unfold arrayAdvance; rw [List.length_mapIdx]; exact hi'), List.getD_eq_getElem _ _ hi']
      unfold arrayAdvance
      rw [List.getElem_mapIdx]
      rfl
    rw [g, hT i hi', fresh]
    congr 1
    refine @entry_congr ℝ A.scalar _ _ _ k 0 fun m _ hm => ?_
    rw [if_pos (by omega), rw' m (by omega)]
    rfl


/-! ### a step from near the motion -/

theorem fresh_facts {s x : Simple} (h : FreshFor s x) : x.P.num = s.P.num ∧ x.P.mass = s.P.mass ∧ x.sync = true ∧ x.time = s.time ∧
    (∀ k, k < s.P.num → x.P.pos k = s.P.pos k ∧ x.P.vel k = s.P.vel k) ∧ ∀ i, i < 6 * s.P.num + 1 → x.inc i = 0 := by
  obtain ⟨f, b, _, ⟨t, _, _, e⟩, z⟩ := h
  refine ⟨f.1, f.2, b, t, fun k hk => ⟨(e k hk).1, (e k hk).2.1⟩, fun i hi => z i ?_⟩
  show i < (s.write gravity).length
  rw [write_length]
  exact hi

theorem fresh_point {n : Nat} {s x : Simple} (h : FreshFor s x) (hn : s.P.num = n) : point n x = point n s := by
  obtain ⟨_, _, _, _, e, _⟩ := fresh_facts h
  refine Prod.ext (funext fun i => congrArg co (e i ?_).1) (funext fun i => congrArg co (e i ?_).2) <;> · rw [hn]; exact i.2

/-- the calls are stages -/
theorem callAll_point {n : Nat} {m : Nat → ℝ} (h : ℝ) (N : Nat) (l : List Stage) (x : Simple) (hn : x.P.num = n) (hm : ∀ k, k < n → x.P.mass k = m k) :
    point n (callAll .exact (l.map (subOp .exact h N)) x) = wstep (plainF n m) (l.map (scaleS (1 / N))) h (point n x) := by
  obtain ⟨r, e, _, _, a⟩ := stages_link (m := m) h (l.map (scaleS (1 / N))) x hn hm
  have e1 : l.map (subOp .exact h N) = (l.map (scaleS (1 / N))).map (Stage.op h) := by
    rw [List.map_map]
    exact List.map_congr_left fun s _ => subOp_exact h N s
  rw [← e1, callAll_exact] at e
  rw [Res.ok.inj e, plain_step]
  exact a

/-- A step from a state near the motion, and the systems its runs start from. -/
def bsNearby (n : Nat) (m : Nat → ℝ) (y : ℝ → Conf n × Conf n) (T r ρ B : ℝ) : Set (ℝ × Simple × (Nat → Simple)) :=
  {z | (z.1, z.2.1) ∈ nearby n m y T r ρ B ∧ ∀ j, FreshFor z.2.1 (z.2.2 j)}

variable {n : Nat} {m : Nat → ℝ} {y : ℝ → Conf n × Conf n} {T r ρ B : ℝ} {W : Set (Conf n × Conf n)} {D : Nat} {kdk : Bool}

theorem bs_apart (hW : IsCompact W) (hWU : W ⊆ Prod.fst ⁻¹' free n) {N : Nat}
    (inW : ∀ t ∈ Set.Icc 0 T, ∀ h ∈ Set.Icc 0 ρ, ∀ z, ‖z - y t‖ ≤ r → ∀ pre suf, subStages kdk N = pre ++ suf → wstep (plainF n m) pre h z ∈ W) (j : Nat)
    (pre suf : List Stage) (e : joined kdk N = pre ++ suf) :
    Apart n (bsNearby n m y T r ρ B) (fun z => (callAll .exact (pre.map (subOp .exact z.1 N)) (z.2.2 j)).P) := by
  intro a b hab hb
  have ha : a < n := by omega
  have cont : Continuous (fun z : Conf n × Conf n => sq (ve (z.1 ⟨b, hb⟩) - ve (z.1 ⟨a, ha⟩))) := by
    unfold sq ve
    simp only [V3.sub_x, V3.sub_y, V3.sub_z]
    fun_prop
  obtain ⟨c, hc, key⟩ := hW.exists_forall_le' (f := fun z : Conf n × Conf n => sq (ve (z.1 ⟨b, hb⟩) - ve (z.1 ⟨a, ha⟩))) cont.continuousOn (a := 0) fun z hz => by
    have := dot_pos (sub_ne_zero.2 (hWU hz ⟨b, hb⟩ ⟨a, ha⟩ (fun h => by have := congrArg Fin.val h; simp at this; omega)))
    exact this
  refine ⟨c, hc, ?_⟩
  rintro z ⟨⟨h1, h2, h3, h4, t, ht, h5⟩, hf⟩
  have := key _ (inW t ht z.1 h1 _ h5 (pre.map (scaleS (1 / N))) (suf.map (scaleS (1 / N))) (by rw [subStages, e, List.map_append]))
  obtain ⟨f1, f2, _⟩ := fresh_facts (hf j)
  rw [← fresh_point (hf j) h2, ← callAll_point z.1 N pre (z.2.2 j) (f1.trans h2) (fun k hk => by rw [f2]; exact h3 k hk)] at this
  exact this

/-- finitely many estimates have common constants -/
theorem near_uniform {Z : Type} {V : ℝ → Z → Prop} {S : Set Z} {F : Nat → Arith → Z → ℝ} {F0 : Nat → Z → ℝ} (M : Nat) (h : ∀ j, j < M → Near V S (F j) (F0 j)) :
    ∃ C u0 : ℝ, 0 ≤ C ∧ 0 < u0 ∧ ∀ A u, Accurate A u → 0 ≤ u → u ≤ u0 → ∀ j, j < M → ∀ z ∈ S, V u z → |F j A z - F0 j z| ≤ C * u := by
  induction M with
  | zero => exact ⟨0, 1, le_rfl, one_pos, fun _ _ _ _ _ j hj => absurd hj (by omega)⟩
  | succ M ih =>
    obtain ⟨C, u0, hC, hu0, H⟩ := ih fun j hj => h j (by omega)
    obtain ⟨_, C', u1, _, hC', hu1, _, _, H'⟩ := h M (by omega)
    refine ⟨C + C', min u0 u1, by positivity, lt_min hu0 hu1, fun A u hA hu hle j hj z hz hv => ?_⟩
    by_cases e : j = M
    · subst e
      refine (H' A u hA hu (hle.trans (min_le_right _ _)) z hz hv).trans (mul_le_mul_of_nonneg_right (by linarith) hu)
    · exact (H A u hA hu (hle.trans (min_le_left _ _)) j (by omega) z hz hv).trans (mul_le_mul_of_nonneg_right (by linarith) hu)

theorem near_fresh (hW : IsCompact W) (hWU : W ⊆ Prod.fst ⁻¹' free n)
    (inW : ∀ j, j ≤ D → ∀ t ∈ Set.Icc 0 T, ∀ h ∈ Set.Icc 0 ρ, ∀ z, ‖z - y t‖ ≤ r → ∀ pre suf, subStages kdk (hSeq D j) = pre ++ suf → wstep (plainF n m) pre h z ∈ W)
    {k i : Nat} (hk : k ≤ D) (hi : i < 6 * n + 1) :
    Near (fun _ _ => True) (bsNearby n m y T r ρ B) (fun A z => fresh A kdk D k z.1 z.2.1 z.2.2 i) (fun z => fresh .exact kdk D k z.1 z.2.1 z.2.2 i) := by
  obtain ⟨R, hR⟩ := hW.isBounded.exists_norm_le
  have bd : ∀ z ∈ bsNearby n m y T r ρ B, ‖point n z.2.1‖ ≤ R := by
    rintro z ⟨⟨h1, h2, h3, h4, t, ht, h5⟩, _⟩
    exact hR _ (inW 0 (Nat.zero_le _) t ht z.1 h1 _ h5 [] _ rfl)
  have kpos : ∀ z ∈ bsNearby n m y T r ρ B, ∀ k, k < n → |(z.2.1.P.pos k).x| ≤ R ∧ |(z.2.1.P.pos k).y| ≤ R ∧ |(z.2.1.P.pos k).z| ≤ R := fun z hz k hk =>
    coord_le _ k hk ((norm_fst_le (point n z.2.1)).trans (bd z hz))
  have kvel : ∀ z ∈ bsNearby n m y T r ρ B, ∀ k, k < n → |(z.2.1.P.vel k).x| ≤ R ∧ |(z.2.1.P.vel k).y| ≤ R ∧ |(z.2.1.P.vel k).z| ≤ R := fun z hz k hk =>
    coord_le _ k hk ((norm_snd_le (point n z.2.1)).trans (bd z hz))
  have start : ∀ j, NearInc n (fun _ _ => True) (bsNearby n m y T r ρ B) (fun _ z => z.2.2 j) (fun z => z.2.2 j) := by
    intro j
    have num : ∀ z ∈ bsNearby n m y T r ρ B, (z.2.2 j).P.num = n := fun z hz => (fresh_facts (hz.2 j)).1.trans hz.1.2.1
    refine ⟨⟨⟨fun _ z hz => num z hz, fun z hz => num z hz, fun k hk => .fixed (fun z : ℝ × Simple × (Nat → Simple) => (z.2.2 j).P.mass k) (B := |m k|) fun z hz => by
        rw [(fresh_facts (hz.2 j)).2.1, hz.1.2.2.1 k hk], fun k hk => ?_, fun k hk => ?_⟩,
      .fixed (fun z : ℝ × Simple × (Nat → Simple) => (z.2.2 j).time) (B := B) fun z hz => by rw [(fresh_facts (hz.2 j)).2.2.2.1]; exact hz.1.2.2.2.1⟩,
      fun _ z hz => (fresh_facts (hz.2 j)).2.2.1, fun z hz => (fresh_facts (hz.2 j)).2.2.1,
      fun i hi => .fixed (fun z : ℝ × Simple × (Nat → Simple) => (z.2.2 j).inc i) (B := 0) fun z hz => by
        rw [(fresh_facts (hz.2 j)).2.2.2.2.2 i (by rw [show z.2.1.P.num = n from hz.1.2.1]; exact hi)]; simp⟩
    · have e : ∀ z ∈ bsNearby n m y T r ρ B, (z.2.2 j).P.pos k = z.2.1.P.pos k := fun z hz =>
        ((fresh_facts (hz.2 j)).2.2.2.2.1 k (by rw [show z.2.1.P.num = n from hz.1.2.1]; exact hk)).1
      exact ⟨.fixed (fun z : ℝ × Simple × (Nat → Simple) => ((z.2.2 j).P.pos k).x) (B := R) fun z hz => by rw [e z hz]; exact (kpos z hz k hk).1,
        .fixed (fun z : ℝ × Simple × (Nat → Simple) => ((z.2.2 j).P.pos k).y) (B := R) fun z hz => by rw [e z hz]; exact (kpos z hz k hk).2.1,
        .fixed (fun z : ℝ × Simple × (Nat → Simple) => ((z.2.2 j).P.pos k).z) (B := R) fun z hz => by rw [e z hz]; exact (kpos z hz k hk).2.2⟩
    · have e : ∀ z ∈ bsNearby n m y T r ρ B, (z.2.2 j).P.vel k = z.2.1.P.vel k := fun z hz =>
        ((fresh_facts (hz.2 j)).2.2.2.2.1 k (by rw [show z.2.1.P.num = n from hz.1.2.1]; exact hk)).2
      exact ⟨.fixed (fun z : ℝ × Simple × (Nat → Simple) => ((z.2.2 j).P.vel k).x) (B := R) fun z hz => by rw [e z hz]; exact (kvel z hz k hk).1,
        .fixed (fun z : ℝ × Simple × (Nat → Simple) => ((z.2.2 j).P.vel k).y) (B := R) fun z hz => by rw [e z hz]; exact (kvel z hz k hk).2.1,
        .fixed (fun z : ℝ × Simple × (Nat → Simple) => ((z.2.2 j).P.vel k).z) (B := R) fun z hz => by rw [e z hz]; exact (kvel z hz k hk).2.2⟩
  have hd : Near (fun _ _ => True) (bsNearby n m y T r ρ B) (fun _ z => z.1) (fun z => z.1) :=
    .fixed (fun z : ℝ × Simple × (Nat → Simple) => z.1) (B := ρ) fun z hz => by rw [abs_of_nonneg hz.1.1.1]; exact hz.1.1.2
  have hrow : ∀ j, j ≤ D → NearEnt (6 * n + 1) (fun _ _ => True) (bsNearby n m y T r ρ B)
      (fun A z => (callAll A (substeps A kdk z.1 (hSeq D j)) (z.2.2 j)).inc) (fun z => (callAll .exact (substeps .exact kdk z.1 (hSeq D j)) (z.2.2 j)).inc) := by
    intro j hj
    have h1 := hSeq_pos (D := D) (i := j) hj
    have g := (NearInc.runs (d := fun z : ℝ × Simple × (Nat → Simple) => z.1) hd h1 (joined kdk (hSeq D j)) _ _ (start j)
      fun pre suf e => bs_apart hW hWU (inW j hj) j pre suf e).inc
    exact g.congr (fun A (z : ℝ × Simple × (Nat → Simple)) _ => by rw [substeps_eq A kdk z.1 _ h1]) fun (z : ℝ × Simple × (Nat → Simple)) _ => by
      rw [substeps_eq .exact kdk z.1 _ h1]
  have en := near_entry (D := D) (M := 6 * n + 1) (Y := fun A (z : ℝ × Simple × (Nat → Simple)) j => (callAll A (substeps A kdk z.1 (hSeq D j)) (z.2.2 j)).inc)
    (Y0 := fun (z : ℝ × Simple × (Nat → Simple)) j => (callAll .exact (substeps .exact kdk z.1 (hSeq D j)) (z.2.2 j)).inc) hrow k 0 (by omega) i hi
  have old : Near (fun _ _ => True) (bsNearby n m y T r ρ B) (fun _ z => (z.2.1.write gravity).getD i 0) (fun z => (z.2.1.write gravity).getD i 0) := by
    refine .fixed (fun z : ℝ × Simple × (Nat → Simple) => (z.2.1.write gravity).getD i 0) (B := max B R) fun z hz => ?_
    rw [Simple.write_getD]
    have hfn : z.2.1.flat.n = n := hz.1.2.1
    have hR0 : ∀ v : V3 ℝ, |v.x| ≤ R ∧ |v.y| ≤ R ∧ |v.z| ≤ R → ∀ c, c < 3 → |SpaceHub.Sys.comp v c| ≤ R := by
      intro v hv c hc
      rcases (by omega : c = 0 ∨ c = 1 ∨ c = 2) with rfl | rfl | rfl
      · exact hv.1
      · exact hv.2.1
      · exact hv.2.2
    rcases Nat.eq_zero_or_pos i with rfl | hpos
    · exact hz.1.2.2.2.1.trans (le_max_left _ _)
    · refine le_trans ?_ (le_max_right _ _)
      rcases Nat.lt_or_ge i (1 + 3 * n) with h | h
      · obtain ⟨q, c, hc, rfl⟩ : ∃ q c, c < 3 ∧ i = 1 + (3 * q + c) := ⟨(i - 1) / 3, (i - 1) % 3, Nat.mod_lt _ (by norm_num), by omega⟩
        rw [posEntry gravity.velDep z.2.1.flat q c (by rw [hfn]; omega) hc]
        exact hR0 _ (kpos z hz q (by omega)) c hc
      · obtain ⟨q, c, hc, rfl⟩ : ∃ q c, c < 3 ∧ i = 1 + 3 * n + (3 * q + c) := ⟨(i - (1 + 3 * n)) / 3, (i - (1 + 3 * n)) % 3, Nat.mod_lt _ (by norm_num), by omega⟩
        have e1 := velEntry gravity.velDep z.2.1.flat q c (by rw [hfn]; omega) hc
        rw [hfn] at e1
        rw [e1]
        exact hR0 _ (kvel z hz q (by omega)) c hc
  exact old.add en

/-- without rounding the new variables are extrapolated ones -/
theorem fresh_exact {h : ℝ} {s : Simple} {start : Nat → Simple} (hf : ∀ j, FreshFor s (start j)) {k : Nat} (hk1 : 1 ≤ k) (hk : k ≤ D) :
    ∃ s', SimpleAt kdk ⟨D, kdk, fun _ _ _ => 0, fun _ _ => 1, fun _ _ => 1⟩ h s s' k ∧ s'.P.num = s.P.num ∧
      ∀ i, i < 6 * s.P.num + 1 → (s'.write gravity).getD i 0 = fresh .exact kdk D k h s start i := by
  have hlen : (s.write gravity).length = 6 * s.P.num + 1 := write_length s
  have hvn : s.variableNumber gravity = 6 * s.P.num + 1 := by rw [← hlen]; exact (C13_simple_size gravity s).symm
  obtain ⟨s', e⟩ : ∃ s', s.read gravity ((List.range (6 * s.P.num + 1)).map (fresh .exact kdk D k h s start)) = .ok s' := by
    obtain ⟨s', a, _⟩ := C13_simple_write_read gravity s ((List.range (6 * s.P.num + 1)).map (fresh .exact kdk D k h s start)) (by rw [hvn, List.length_map, List.length_range])
    exact ⟨s', a⟩
  obtain ⟨f, _, w⟩ := Simple.read_frame gravity s s' _ e
  have g : ∀ i, i < 6 * s.P.num + 1 → (s'.write gravity).getD i 0 = fresh .exact kdk D k h s start i := fun i hi => by
    rw [w, List.getD_eq_getElem _ _ (by simpa using hi), List.getElem_map, List.getElem_range]
  refine ⟨s', ?_, f.1, g⟩
  have run : ∀ j, j ≤ D → (simpleOps gravity).run (if kdk then substepsKDK h (hSeq D j) else substepsDKD h (hSeq D j)) (start j) =
      .ok (callAll .exact (substeps .exact kdk h (hSeq D j)) (start j)) := fun j hj => by
    rw [substeps_eq .exact kdk h _ (hSeq_pos hj), ← callAll_exact, ← subStages_calls kdk h _ (hSeq_pos hj), subStages, List.map_map]
    congr 1
    exact List.map_congr_left fun s _ => (subOp_exact h _ s).symm
  refine ⟨start, fun j => callAll .exact (substeps .exact kdk h (hSeq D j)) (start j), fun i => (s'.write gravity).getD i 0 - (s.write gravity).getD i 0,
    fun i => zeroStep (hSeq D) (fun j => ((callAll .exact (substeps .exact kdk h (hSeq D j)) (start j)).write gravity).getD i 0) 1 k - (s.write gravity).getD i 0, hk1, hk,
    fun j hj => ⟨(hf j).2.2.2.1, run j (by omega)⟩, fun i hi => ⟨?_, rfl, rfl⟩, zero_le_one⟩
  have inc : ∀ j, j ≤ D → (callAll .exact (substeps .exact kdk h (hSeq D j)) (start j)).inc i =
      ((callAll .exact (substeps .exact kdk h (hSeq D j)) (start j)).write gravity).getD i 0 - (s.write gravity).getD i 0 := fun j hj =>
    fresh_inc (O := simpleSys gravity kdk) (simple_lawful gravity kdk s) (hf j) (h := h) (n := hSeq D j) (run j hj) hi
  rw [g i (by rw [← hlen]; exact hi), fresh]
  have e1 : @entry ℝ Arith.exact.scalar D (fun m => (callAll .exact (substeps .exact kdk h (hSeq D m)) (start m)).inc i) k 0 =
      zeroStep (hSeq D) (fun m => (callAll .exact (substeps .exact kdk h (hSeq D m)) (start m)).inc i) 0 (0 + k) := entry_exact _ k 0 (by omega)
  rw [e1, Nat.zero_add, zeroStep_congr (y' := fun m => ((callAll .exact (substeps .exact kdk h (hSeq D m)) (start m)).write gravity).getD i 0 - (s.write gravity).getD i 0)
    (fun j _ hj => inc j (by omega)), zeroStep_add_const (Nat.zero_le _) hk]
  show _ + (_ - _) = _
  ring

/-- What rounding does to an accepted step from a state near the motion. -/
theorem near_bs (hW : IsCompact W) (hWU : W ⊆ Prod.fst ⁻¹' free n)
    (inW : ∀ j, j ≤ D → ∀ t ∈ Set.Icc 0 T, ∀ h ∈ Set.Icc 0 ρ, ∀ z, ‖z - y t‖ ≤ r → ∀ pre suf, subStages kdk (hSeq D j) = pre ++ suf → wstep (plainF n m) pre h z ∈ W) :
    ∃ C u0 : ℝ, 0 ≤ C ∧ 0 < u0 ∧ ∀ A u, Accurate A u → 0 ≤ u → u ≤ u0 → ∀ (k : Nat) (h : ℝ) (s s' : Simple) (start : Nat → Simple), 1 ≤ k → k ≤ D →
      (h, s) ∈ nearby n m y T r ρ B → (∀ j, FreshFor s (start j)) → s'.P.num = s.P.num →
      (∀ i, i < 6 * s.P.num + 1 → (s'.write gravity).getD i 0 = fresh A kdk D k h s start i) →
      ‖point n s' - (extrapMix D kdk 0 k).step (plainF n m) h (point n s)‖ ≤ C * u ∧ |s'.time - (s.time + h)| ≤ C * u := by
  obtain ⟨C, u0, hC, hu0, H⟩ := near_uniform (V := fun _ _ => True) (S := bsNearby n m y T r ρ B)
    (F := fun j A z => fresh A kdk D (j / (6 * n + 1)) z.1 z.2.1 z.2.2 (j % (6 * n + 1)))
    (F0 := fun j z => fresh .exact kdk D (j / (6 * n + 1)) z.1 z.2.1 z.2.2 (j % (6 * n + 1))) ((D + 1) * (6 * n + 1)) fun j hj =>
      near_fresh hW hWU inW (Nat.lt_succ_iff.1 ((Nat.div_lt_iff_lt_mul (by omega)).2 hj)) (Nat.mod_lt _ (by omega))
  refine ⟨C, u0, hC, hu0, fun A u hA hu hle k h s s' start hk1 hk hs hf hn' hw => ?_⟩
  have hn : s.P.num = n := hs.2.1
  obtain ⟨sE, X, hnE, wE⟩ := fresh_exact (kdk := kdk) (h := h) hf hk1 hk
  obtain ⟨t, c⟩ := simple_extrap (m := m) X hn hs.2.2.1 hnE
  have key : ∀ i, i < 6 * n + 1 → |(s'.write gravity).getD i 0 - (sE.write gravity).getD i 0| ≤ C * u := by
    intro i hi
    rw [hw i (by rw [hn]; exact hi), wE i (by rw [hn]; exact hi)]
    have := H A u hA hu hle (k * (6 * n + 1) + i) (calc
        k * (6 * n + 1) + i < k * (6 * n + 1) + (6 * n + 1) := Nat.add_lt_add_left hi _
        _ = (k + 1) * (6 * n + 1) := (Nat.add_one_mul _ _).symm
        _ ≤ (D + 1) * (6 * n + 1) := Nat.mul_le_mul_right _ (by omega)) (h, s, start) ⟨hs, hf⟩ trivial
    rw [show (k * (6 * n + 1) + i) / (6 * n + 1) = k by
        rw [Nat.mul_comm, Nat.mul_add_div (by omega), Nat.div_eq_of_lt hi, Nat.add_zero],
      show (k * (6 * n + 1) + i) % (6 * n + 1) = i by rw [Nat.mul_comm, Nat.mul_add_mod, Nat.mod_eq_of_lt hi]] at this
    exact this
  simp only [Simple.write_getD] at key
  have n1 : s'.flat.n = n := hn'.trans hn
  have n2 : sE.flat.n = n := hnE.trans hn
  have kp : ∀ q c, q < n → c < 3 → |SpaceHub.Sys.comp (s'.P.pos q) c - SpaceHub.Sys.comp (sE.P.pos q) c| ≤ C * u := fun q c hq hc => by
    have := key (1 + (3 * q + c)) (by omega)
    rwa [posEntry gravity.velDep s'.flat q c (by rw [n1]; exact hq) hc, posEntry gravity.velDep sE.flat q c (by rw [n2]; exact hq) hc] at this
  have kv : ∀ q c, q < n → c < 3 → |SpaceHub.Sys.comp (s'.P.vel q) c - SpaceHub.Sys.comp (sE.P.vel q) c| ≤ C * u := fun q c hq hc => by
    have := key (1 + 3 * n + (3 * q + c)) (by omega)
    have e1 := velEntry gravity.velDep s'.flat q c (by rw [n1]; exact hq) hc
    have e2 := velEntry gravity.velDep sE.flat q c (by rw [n2]; exact hq) hc
    rw [n1] at e1
    rw [n2] at e2
    rwa [e1, e2] at this
  have hCu : 0 ≤ C * u := by positivity
  constructor
  · rw [show (extrapMix D kdk 0 k).step (plainF n m) h (point n s) = point n sE from c.symm]
    exact norm_prod_le_iff.2 ⟨le_coord _ _ hCu fun q hq => ⟨kp q 0 hq (by norm_num), kp q 1 hq (by norm_num), kp q 2 hq (by norm_num)⟩,
      le_coord _ _ hCu fun q hq => ⟨kv q 0 hq (by norm_num), kv q 1 hq (by norm_num), kv q 2 hq (by norm_num)⟩⟩
  · rw [← t]
    exact key 0 (by omega)

end SpaceHub.Rounded
