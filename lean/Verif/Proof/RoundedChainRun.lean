import Verif.Proof.RoundedChain
import Verif.Props.RoundedRun
import Verif.Props.BSChain

/-
Steps of a chain system in rounded arithmetic, near a motion.
-/

set_option autoImplicit false

namespace SpaceHub.Rounded
open SpaceHub V3 Force Core Integrator Spec Sys Props Converge

variable {n : Nat}

/-- the plain system that the chain stands for -/
noncomputable def plainOf (s : ChainSys) : Simple :=
  Simple.init s.time ⟨s.P.num, toCartR .exact s.P.num s.cpos (fun _ => 0) s.index, toCartR .exact s.P.num s.cvel (fun _ => 0) s.index, s.P.mass⟩

/-! ### Cartesian coordinates and chains -/

/-- `x` is the Cartesian form of the chain, up to `δ` -/
def Close (n : Nat) (δ : ℝ) (x c : Arr (V3 ℝ)) (σ : Arr Nat) : Prop :=
  ∀ i, i < n → |(x (σ i)).x - (partialR .exact n c i).x| ≤ δ ∧ |(x (σ i)).y - (partialR .exact n c i).y| ≤ δ ∧ |(x (σ i)).z - (partialR .exact n c i).z| ≤ δ

/-- `x` has been computed from the chain, or is close to it -/
def Tie (A : Arith) (n : Nat) (δ : ℝ) (x c : Arr (V3 ℝ)) (σ : Arr Nat) : Prop := (∀ i, i < n → x (σ i) = partialR A n c i) ∨ Close n δ x c σ

/-- the coordinates of a chain are bounded -/
def Bdd (n : Nat) (R : ℝ) (c : Arr (V3 ℝ)) : Prop := ∀ i, i < n → |(c i).x| ≤ R ∧ |(c i).y| ≤ R ∧ |(c i).z| ≤ R

theorem NearA.fixed {Z : Type} {V : ℝ → Z → Prop} {S : Set Z} {x : Z → Arr (V3 ℝ)} {R : ℝ} (h : ∀ z ∈ S, Bdd n R (x z)) : NearA n V S (fun _ => x) x := fun k hk =>
  ⟨.fixed (fun z => (x z k).x) fun z hz => (h z hz k hk).1, .fixed (fun z => (x z k).y) fun z hz => (h z hz k hk).2.1, .fixed (fun z => (x z k).z) fun z hz => (h z hz k hk).2.2⟩

/-- Summing up a chain of bounded size. -/
theorem partial_close (n : Nat) (R : ℝ) : ∃ κ u0 : ℝ, 0 ≤ κ ∧ 0 < u0 ∧ ∀ A u, Accurate A u → 0 ≤ u → u ≤ u0 → ∀ c, Bdd n R c → ∀ i, i < n →
    |(partialR A n c i).x - (partialR .exact n c i).x| ≤ κ * u ∧ |(partialR A n c i).y - (partialR .exact n c i).y| ≤ κ * u ∧
      |(partialR A n c i).z - (partialR .exact n c i).z| ≤ κ * u := by
  have key : NearA n (fun _ _ => True) {c | Bdd n R c} (fun A c => partialR A n c) (fun c => partialR .exact n c) := by
    have h : NearA n (fun _ _ => True) {c | Bdd n R c} (fun _ c => c) (fun c => c) := NearA.fixed fun c hc => hc
    intro i
    induction i with
    | zero => exact fun hi => h (n - 1) (by omega)
    | succ i ih => exact fun hi => (ih (by omega)).add (h i (by omega))
  obtain ⟨κ, u0, a, b, c⟩ := key.uniform n
  exact ⟨κ, u0, a, b, fun A u hA h0 h1 x hx i hi => c A u hA h0 h1 x hx trivial i hi⟩

/-- Making a chain of coordinates of bounded size. -/
theorem chain_close (n : Nat) (hn : 1 ≤ n) (R : ℝ) : ∃ κ u0 : ℝ, 0 ≤ κ ∧ 0 < u0 ∧ ∀ A u, Accurate A u → 0 ≤ u → u ≤ u0 → ∀ σ, IsIndex n σ → ∀ x, Bdd n R x →
    Close n (κ * u) x (toChainR A n x (fun _ => 0) σ) σ := by
  have hid : IsIndex n (fun i => i) := ⟨fun i h => h, fun i j _ _ h => h⟩
  have h : NearA n (fun _ _ => True) {x | Bdd n R x} (fun _ x => x) (fun x => x) := NearA.fixed fun c hc => hc
  have key := (Links.ofChain hid h hn fun _ _ _ => 0).partials_exact
  have key' : NearA n (fun _ _ => True) {x | Bdd n R x} (fun A x => partialR .exact n (toChainR A n x (fun _ => 0) (fun i => i))) (fun x => x) := key
  obtain ⟨κ, u0, a, b, c⟩ := key'.uniform n
  refine ⟨κ, u0, a, b, fun A u hA h0 h1 σ hσ x hx i hi => ?_⟩
  have := c A u hA h0 h1 (fun i => x (σ i)) (fun i hi => hx _ (hσ.lt i hi)) trivial i hi
  rw [abs_sub_comm, abs_sub_comm (x (σ i)).y, abs_sub_comm (x (σ i)).z]
  exact this

theorem Tie.cart {A : Arith} {δ : ℝ} {σ : Arr Nat} (hn : 1 ≤ n) (hσ : IsIndex n σ) (c x : Arr (V3 ℝ)) : Tie A n δ (toCartR A n c x σ) c σ :=
  .inl fun i hi => toCartR_entry hn hσ c x i hi

/-- the invariant of the systems -/
structure Tied (A : Arith) (n : Nat) (δ : ℝ) (s : ChainSys) : Prop where
  num : s.P.num = n
  index : IsIndex n s.index
  pos : Tie A n δ s.P.pos s.cpos s.index
  vel : Tie A n δ s.P.vel s.cvel s.index

theorem Tied.stage {A : Arith} {δ : ℝ} {s : ChainSys} (hn : 1 ≤ n) (T : Tied A n δ s) (h : ℝ) (c : Stage) : Tied A n δ (stageC A h c s) := by
  obtain ⟨rfl, b, c1, c2⟩ := T
  cases c with
  | drift c => exact ⟨rfl, b, Tie.cart hn b _ _, c2⟩
  | kick c => exact ⟨rfl, b, c1, Tie.cart hn b _ _⟩

theorem Tied.step {A : Arith} {δ : ℝ} (hn : 1 ≤ n) (h : ℝ) (stages : List Stage) : ∀ {s : ChainSys}, Tied A n δ s → Tied A n δ (stepC A stages h s) := by
  induction stages with
  | nil => exact fun T => T
  | cons c l ih => exact fun T => ih (T.stage hn h c)

theorem Tied.post {A : Arith} {δ : ℝ} {s : ChainSys} (hn : 1 ≤ n) (T : Tied A n δ s) {τ : Arr Nat} (hτ : IsIndex n τ) : Tied A n δ (postIterC A τ s) := by
  unfold postIterC
  split_ifs with h
  · obtain ⟨rfl, b, c1, c2⟩ := T
    exact ⟨rfl, hτ, Tie.cart hn hτ _ _, Tie.cart hn hτ _ _⟩
  · exact T

theorem stepC_keeps (A : Arith) (h : ℝ) (stages : List Stage) : ∀ s : ChainSys,
    (stepC A stages h s).P.num = s.P.num ∧ (stepC A stages h s).P.mass = s.P.mass ∧ (stepC A stages h s).index = s.index := by
  induction stages with
  | nil => intro s; exact ⟨rfl, rfl, rfl⟩
  | cons c l ih =>
    intro s
    obtain ⟨a, b, e⟩ := ih (stageC A h c s)
    change (stepC A (c :: l) h s).P.num = _ at a
    change (stepC A (c :: l) h s).P.mass = _ at b
    change (stepC A (c :: l) h s).index = _ at e
    rw [a, b, e]
    cases c with
    | drift c => exact ⟨rfl, rfl, rfl⟩
    | kick c => exact ⟨rfl, rfl, rfl⟩

/-- the indices: finitely many -/
def indices (n : Nat) : List (Arr Nat) := (List.range n).permutations.map Chain.ofList

theorem IndexOfR.mem {A : Arith} {P : Particles} {idx : Arr Nat} (h : IndexOfR A P idx) : idx ∈ indices P.num := by
  obtain ⟨fuel, l, h, rfl⟩ := h
  exact List.mem_map.2 ⟨l, List.mem_permutations.2 (Chain.calcChainIndex_perm h), rfl⟩

theorem indices_isIndex {σ : Arr Nat} (h : σ ∈ indices n) : IsIndex n σ := by
  obtain ⟨l, hl, rfl⟩ := List.mem_map.1 h
  exact Chain.isIndex_ofList (List.mem_permutations.1 hl)

/-- one pair of constants for finitely many cases -/
theorem finite_uniform {ι : Type} (Q : ι → ℝ → ℝ → Prop) (mono : ∀ i C C' u u', C ≤ C' → u' ≤ u → Q i C u → Q i C' u') :
    ∀ L : List ι, (∀ i ∈ L, ∃ C u, 0 ≤ C ∧ 0 < u ∧ Q i C u) → ∃ C u : ℝ, 0 ≤ C ∧ 0 < u ∧ ∀ i ∈ L, Q i C u := by
  intro L
  induction L with
  | nil => exact fun _ => ⟨0, 1, le_rfl, one_pos, by simp⟩
  | cons i L ih =>
    intro h
    obtain ⟨C, u, a, b, c⟩ := ih fun j hj => h j (List.mem_cons_of_mem _ hj)
    obtain ⟨C', u', a', b', c'⟩ := h i (List.mem_cons_self ..)
    refine ⟨max C C', min u u', a.trans (le_max_left _ _), lt_min b b', fun j hj => ?_⟩
    rcases List.mem_cons.1 hj with rfl | hj
    · exact mono _ _ _ _ _ (le_max_right _ _) (min_le_right _ _) c'
    · exact mono _ _ _ _ _ (le_max_left _ _) (min_le_left _ _) (c j hj)

/-! ### one step -/

/-- steps from states near a motion whose chain has the index `σ` -/
def cnear (n : Nat) (σ : Arr Nat) (m : Nat → ℝ) (y : ℝ → Conf n × Conf n) (T r ρ B : ℝ) : Set (ℝ × ChainSys) := {z | z.2.index = σ ∧ (z.1, plainOf z.2) ∈ nearby n m y T r ρ B}

theorem plain_pos {s : ChainSys} (hn : 1 ≤ n) (hs : s.P.num = n) (hi : IsIndex n s.index) (i : Nat) (h : i < n) : (plainOf s).P.pos (s.index i) = partialR .exact n s.cpos i := by
  subst hs; exact toCartR_entry hn hi _ _ i h

theorem plain_vel {s : ChainSys} (hn : 1 ≤ n) (hs : s.P.num = n) (hi : IsIndex n s.index) (i : Nat) (h : i < n) : (plainOf s).P.vel (s.index i) = partialR .exact n s.cvel i := by
  subst hs; exact toCartR_entry hn hi _ _ i h

/-- the start of a step: the stored chain stands for a state near the motion, and the stored coordinates are close to it -/
theorem cnear_start (hn : 2 ≤ n) {σ : Arr Nat} (hσ : IsIndex n σ) {m : Nat → ℝ} {y : ℝ → Conf n × Conf n} {T r ρ B R κ : ℝ} (hκ : 0 ≤ κ)
    (bd : ∀ z ∈ cnear n σ m y T r ρ B, ‖point n (plainOf z.2)‖ ≤ R) :
    NearC n (fun u z => Close n (κ * u) z.2.P.pos z.2.cpos z.2.index ∧ Close n (κ * u) z.2.P.vel z.2.cvel z.2.index)
      (cnear n σ m y T r ρ B) σ (fun _ z => z.2) (fun z => plainOf z.2) := by
  set S := cnear n σ m y T r ρ B
  have bp : ∀ z ∈ S, ∀ k, k < n → |((plainOf z.2).P.pos k).x| ≤ R ∧ |((plainOf z.2).P.pos k).y| ≤ R ∧ |((plainOf z.2).P.pos k).z| ≤ R := fun z hz k hk =>
    coord_le _ k hk ((norm_fst_le (point n (plainOf z.2))).trans (bd z hz))
  have bv : ∀ z ∈ S, ∀ k, k < n → |((plainOf z.2).P.vel k).x| ≤ R ∧ |((plainOf z.2).P.vel k).y| ≤ R ∧ |((plainOf z.2).P.vel k).z| ≤ R := fun z hz k hk =>
    coord_le _ k hk ((norm_snd_le (point n (plainOf z.2))).trans (bd z hz))
  have num : ∀ z ∈ S, z.2.P.num = n := fun z hz => hz.2.2.1
  have idx : ∀ z ∈ S, IsIndex n z.2.index := fun z hz => by rw [hz.1]; exact hσ
  -- the chain is exactly that of the plain system
  have links : ∀ (V : ℝ → ℝ × ChainSys → Prop) (c : ChainSys → Arr (V3 ℝ)) (x : ChainSys → Arr (V3 ℝ)), (∀ z ∈ S, Bdd n R (x z.2)) →
      (∀ z ∈ S, ∀ i, i < n → x z.2 (σ i) = partialR .exact n (c z.2) i) → Links n V S σ (fun _ z => c z.2) (fun z => x z.2) := by
    intro V c x hb hx
    have h0 : NearA n V S (fun _ z => x z.2) (fun z => x z.2) := NearA.fixed (x := fun z : ℝ × ChainSys => x z.2) hb
    refine ⟨fun i hi => ?_, ?_⟩
    · refine ((h0 _ (hσ.lt (i + 1) hi)).plus (h0 _ (hσ.lt i (by omega))).neg).congr (fun A z hz => ?_) fun z hz => ?_
      · show c z.2 i = addV .exact (x z.2 (σ (i + 1))) (-(x z.2 (σ i)))
        rw [hx z hz (i + 1) hi, hx z hz i (by omega), partialR, addV_exact, addV_exact]; abel
      · rw [addV_exact]; abel
    · exact (h0 _ (hσ.lt 0 (by omega))).congr (fun A z hz => (hx z hz 0 (by omega)).symm) fun z hz => rfl
  have near : ∀ (V : ℝ → ℝ × ChainSys → Prop) (c w x : ChainSys → Arr (V3 ℝ)), (∀ u z, V u z → Close n (κ * u) (w z.2) (c z.2) z.2.index) → (∀ z ∈ S, Bdd n R (x z.2)) →
      (∀ z ∈ S, ∀ i, i < n → x z.2 (σ i) = partialR .exact n (c z.2) i) → NearA n V S (fun _ z => w z.2) (fun z => x z.2) := by
    intro V c w x hV hb hx k hk
    obtain ⟨i, hi, rfl⟩ := hσ.surj hk
    have R0 : ∀ z ∈ S, 0 ≤ R := fun z hz => (norm_nonneg _).trans (bd z hz)
    refine ⟨⟨max R 0, κ, 1, le_max_right _ _, hκ, one_pos, le_rfl, fun z hz => (hb z hz _ hk).1.trans (le_max_left _ _), fun A u hA hu hu0 z hz hv => ?_⟩,
      ⟨max R 0, κ, 1, le_max_right _ _, hκ, one_pos, le_rfl, fun z hz => (hb z hz _ hk).2.1.trans (le_max_left _ _), fun A u hA hu hu0 z hz hv => ?_⟩,
      ⟨max R 0, κ, 1, le_max_right _ _, hκ, one_pos, le_rfl, fun z hz => (hb z hz _ hk).2.2.trans (le_max_left _ _), fun A u hA hu hu0 z hz hv => ?_⟩⟩ <;>
    · have := hV u z hv i hi
      rw [hz.1, ← hx z hz i hi] at this
      first | exact this.1 | exact this.2.1 | exact this.2.2
  have xp : ∀ z ∈ S, ∀ i, i < n → (plainOf z.2).P.pos (σ i) = partialR .exact n z.2.cpos i := fun z hz i hi => by
    have := plain_pos (by omega) (num z hz) (idx z hz) i hi
    rwa [hz.1] at this
  have xv : ∀ z ∈ S, ∀ i, i < n → (plainOf z.2).P.vel (σ i) = partialR .exact n z.2.cvel i := fun z hz i hi => by
    have := plain_vel (by omega) (num z hz) (idx z hz) i hi
    rwa [hz.1] at this
  exact ⟨fun _ => num, num, fun _ z hz => hz.1, fun k hk => .fixed (fun z : ℝ × ChainSys => z.2.P.mass k) (B := |m k|) fun z hz => by rw [show z.2.P.mass k = m k from hz.2.2.2.1 k hk],
    near _ (fun s => s.cpos) (fun s => s.P.pos) (fun s => (plainOf s).P.pos) (fun _ _ h => h.1) bp xp,
    near _ (fun s => s.cvel) (fun s => s.P.vel) (fun s => (plainOf s).P.vel) (fun _ _ h => h.2) bv xv,
    links _ (fun s => s.cpos) (fun s => (plainOf s).P.pos) bp xp, links _ (fun s => s.cvel) (fun s => (plainOf s).P.vel) bv xv,
    .fixed (fun z : ℝ × ChainSys => z.2.time) (B := B) fun z hz => hz.2.2.2.2.1⟩

/-- What rounding does to one step and the `post_iter_process` after it. -/
theorem chain_step (hn : 2 ≤ n) {m : Nat → ℝ} {y : ℝ → Conf n × Conf n} {T r ρ B κ : ℝ} (hκ : 0 ≤ κ) {stages : List Stage} {W : Set (Conf n × Conf n)} (hW : IsCompact W)
    (hWU : W ⊆ Prod.fst ⁻¹' free n)
    (inW : ∀ t ∈ Set.Icc 0 T, ∀ h ∈ Set.Icc 0 ρ, ∀ z, ‖z - y t‖ ≤ r → ∀ pre suf, stages = pre ++ suf → wstep (plainF n m) pre h z ∈ W) {σ τ : Arr Nat}
    (hσ : IsIndex n σ) (hτ : IsIndex n τ) :
    ∃ C u0 : ℝ, 0 ≤ C ∧ 0 < u0 ∧ ∀ A u, Accurate A u → 0 ≤ u → u ≤ u0 → ∀ z ∈ cnear n σ m y T r ρ B,
      Close n (κ * u) z.2.P.pos z.2.cpos z.2.index → Close n (κ * u) z.2.P.vel z.2.cvel z.2.index →
      ‖point n (plainOf (postIterC A τ (stepC A stages z.1 z.2))) - wstep (plainF n m) stages z.1 (point n (plainOf z.2))‖ ≤ C * u ∧
      |(postIterC A τ (stepC A stages z.1 z.2)).time - (z.2.time + sumDrift stages * z.1)| ≤ C * u := by
  obtain ⟨R, hR⟩ := hW.isBounded.exists_norm_le
  have start := cnear_start hn hσ (m := m) (y := y) (T := T) (r := r) (ρ := ρ) (B := B) (R := R) hκ (by
    rintro z ⟨_, h1, h2, h3, h4, t, ht, h5⟩
    exact hR _ (inW t ht z.1 h1 _ h5 [] stages rfl))
  set S := cnear n σ m y T r ρ B with hS
  have apart : ∀ pre suf, stages = pre ++ suf → Apart n S (fun z => (step .exact pre z.1 (plainOf z.2)).P) := fun pre suf e i j hij hj => by
    obtain ⟨b, hb, k⟩ := nearby_apart (B := B) hW hWU inW pre suf e i j hij hj
    exact ⟨b, hb, fun z hz => k (z.1, plainOf z.2) hz.2⟩
  have hd := Near.fixed (V := fun u (z : ℝ × ChainSys) => Close n (κ * u) z.2.P.pos z.2.cpos z.2.index ∧ Close n (κ * u) z.2.P.vel z.2.cvel z.2.index)
    (S := S) (fun z : ℝ × ChainSys => z.1) (B := ρ) fun z hz => by rw [abs_of_nonneg hz.2.1.1]; exact hz.2.1.2
  have fin := NearC.step hn hσ (d := fun z : ℝ × ChainSys => z.1) hd stages (fun _ z => z.2) (fun z => plainOf z.2) start apart
  have fin' : ∃ υ, IsIndex n υ ∧ NearC n (fun u (z : ℝ × ChainSys) => Close n (κ * u) z.2.P.pos z.2.cpos z.2.index ∧ Close n (κ * u) z.2.P.vel z.2.cvel z.2.index) S υ
      (fun A z => postIterC A τ (stepC A stages z.1 z.2)) (fun z => step .exact stages z.1 (plainOf z.2)) := by
    by_cases hne : ∃ k, k < n ∧ τ k ≠ σ k
    · exact ⟨τ, hτ, fin.post hn hσ hτ hne⟩
    · have e : ∀ A, ∀ z ∈ S, postIterC A τ (stepC A stages z.1 z.2) = stepC A stages z.1 z.2 := fun A z hz => by
        obtain ⟨a, _, b⟩ := stepC_keeps A z.1 stages z.2
        unfold postIterC
        rw [if_neg]
        rw [a, b, hz.1, show z.2.P.num = n from hz.2.2.1]
        exact hne
      exact ⟨σ, hσ, fun A z hz => by rw [e A z hz]; exact fin.num A z hz, fin.num0, fun A z hz => by rw [e A z hz]; exact fin.index A z hz,
        fun k hk => (fin.mass k hk).congr (fun A z hz => by rw [e A z hz]) fun _ _ => rfl, fin.pos.congr (fun A z hz => by rw [e A z hz]) fun _ _ => rfl,
        fin.vel.congr (fun A z hz => by rw [e A z hz]) fun _ _ => rfl,
        ⟨fun i hi => (fin.cpos.link i hi).congr (fun A z hz => by rw [e A z hz]) fun _ _ => rfl, fin.cpos.base.congr (fun A z hz => by rw [e A z hz]) fun _ _ => rfl⟩,
        ⟨fun i hi => (fin.cvel.link i hi).congr (fun A z hz => by rw [e A z hz]) fun _ _ => rfl, fin.cvel.base.congr (fun A z hz => by rw [e A z hz]) fun _ _ => rfl⟩,
        fin.time.congr (fun A z hz => by rw [e A z hz]) fun _ _ => rfl⟩
  obtain ⟨υ, hυ, fin'⟩ := fin'
  obtain ⟨C1, u1, hC1, p1, k1⟩ := (fin'.cpos.cart_exact (by omega) hυ fun _ _ _ => 0).uniform n
  obtain ⟨C2, u2, hC2, p2, k2⟩ := (fin'.cvel.cart_exact (by omega) hυ fun _ _ _ => 0).uniform n
  obtain ⟨_, C3, u3, _, hC3, p3, _, _, k3⟩ := fin'.time
  refine ⟨C1 + (C2 + C3), min u1 (min u2 u3), by positivity, lt_min p1 (lt_min p2 p3), fun A u hA hu hle z hz hp hv => ?_⟩
  have l1 := hle.trans (min_le_left _ _)
  have l2 := (hle.trans (min_le_right _ _)).trans (min_le_left _ _)
  have l3 := (hle.trans (min_le_right _ _)).trans (min_le_right _ _)
  have w1 : C1 * u ≤ (C1 + (C2 + C3)) * u := mul_le_mul_of_nonneg_right (by linarith) hu
  have w2 : C2 * u ≤ (C1 + (C2 + C3)) * u := mul_le_mul_of_nonneg_right (by linarith) hu
  have w3 : C3 * u ≤ (C1 + (C2 + C3)) * u := mul_le_mul_of_nonneg_right (by linarith) hu
  have e : point n (plainOf (postIterC A τ (stepC A stages z.1 z.2))) = (conf n (toCartR .exact n (postIterC A τ (stepC A stages z.1 z.2)).cpos (fun _ => 0) υ),
      conf n (toCartR .exact n (postIterC A τ (stepC A stages z.1 z.2)).cvel (fun _ => 0) υ)) := by
    have a : (postIterC A τ (stepC A stages z.1 z.2)).P.num = n := fin'.num A z hz
    have b : (postIterC A τ (stepC A stages z.1 z.2)).index = υ := fin'.index A z hz
    unfold point plainOf
    rw [a, b]
    rfl
  constructor
  · rw [e, ← step_point z.1 stages (plainOf z.2) hz.2.2.1 hz.2.2.2.1]
    exact norm_prod_le_iff.2 ⟨(le_coord _ _ (by positivity) (k1 A u hA hu l1 z hz ⟨hp, hv⟩)).trans w1, (le_coord _ _ (by positivity) (k2 A u hA hu l2 z hz ⟨hp, hv⟩)).trans w2⟩
  · have := (step_keeps A z.1 stages (plainOf z.2)).2.2
    rw [show z.2.time + sumDrift stages * z.1 = (step .exact stages z.1 (plainOf z.2)).time from this.symm]
    exact (k3 A u hA hu l3 z hz ⟨hp, hv⟩).trans w3

/-- the same, whatever the indices -/
theorem chain_steps (hn : 2 ≤ n) {m : Nat → ℝ} {y : ℝ → Conf n × Conf n} {T r ρ B κ : ℝ} (hκ : 0 ≤ κ) {stages : List Stage} {W : Set (Conf n × Conf n)} (hW : IsCompact W)
    (hWU : W ⊆ Prod.fst ⁻¹' free n)
    (inW : ∀ t ∈ Set.Icc 0 T, ∀ h ∈ Set.Icc 0 ρ, ∀ z, ‖z - y t‖ ≤ r → ∀ pre suf, stages = pre ++ suf → wstep (plainF n m) pre h z ∈ W) :
    ∃ C u0 : ℝ, 0 ≤ C ∧ 0 < u0 ∧ ∀ σ ∈ indices n, ∀ τ ∈ indices n, ∀ A u, Accurate A u → 0 ≤ u → u ≤ u0 → ∀ z ∈ cnear n σ m y T r ρ B,
      Close n (κ * u) z.2.P.pos z.2.cpos z.2.index → Close n (κ * u) z.2.P.vel z.2.cvel z.2.index →
      ‖point n (plainOf (postIterC A τ (stepC A stages z.1 z.2))) - wstep (plainF n m) stages z.1 (point n (plainOf z.2))‖ ≤ C * u ∧
      |(postIterC A τ (stepC A stages z.1 z.2)).time - (z.2.time + sumDrift stages * z.1)| ≤ C * u := by
  obtain ⟨C, u0, a, b, h⟩ := finite_uniform (fun q : Arr Nat × Arr Nat => fun C u0 => ∀ A u, Accurate A u → 0 ≤ u → u ≤ u0 → ∀ z ∈ cnear n q.1 m y T r ρ B,
      Close n (κ * u) z.2.P.pos z.2.cpos z.2.index → Close n (κ * u) z.2.P.vel z.2.cvel z.2.index →
      ‖point n (plainOf (postIterC A q.2 (stepC A stages z.1 z.2))) - wstep (plainF n m) stages z.1 (point n (plainOf z.2))‖ ≤ C * u ∧
      |(postIterC A q.2 (stepC A stages z.1 z.2)).time - (z.2.time + sumDrift stages * z.1)| ≤ C * u)
    (fun q C C' u u' hC hu h A v hA h0 hv z hz hp hw => by
      obtain ⟨a, b⟩ := h A v hA h0 (hv.trans hu) z hz hp hw
      exact ⟨a.trans (mul_le_mul_of_nonneg_right hC h0), b.trans (mul_le_mul_of_nonneg_right hC h0)⟩)
    (indices n ×ˢ indices n) fun q hq => by
      obtain ⟨h1, h2⟩ := List.mem_product.1 hq
      exact chain_step hn hκ hW hWU inW (indices_isIndex h1) (indices_isIndex h2)
  exact ⟨C, u0, a, b, fun σ hσ τ hτ => h (σ, τ) (List.mem_product.2 ⟨hσ, hτ⟩)⟩

end SpaceHub.Rounded
