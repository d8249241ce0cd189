import Verif.Model.System
import Verif.Model.StepControl

/-
Model of src/integrator/Gauss-Radau.hpp and src/ode-iterator/IAS15.hpp, and of the derivative that the regularised chain
system hands to them.
Simplifications: exact real arithmetic (the decimal literals of the tables are not rounded to `double`); work arrays are
functions of the index of the variable, and loops over the variables act on every index - only the first `var_num_`
exist in the program, and only those are read.
-/

set_option autoImplicit false

namespace SpaceHub.Sys
open SpaceHub V3 Force Core

/-- `ARchainSystem::evaluate_general_derivative`, archain.hpp:293-326: the derivatives and the updated `scale_`.  The chain
potential is evaluated for every `type` (see `ARSys.kick`). -/
noncomputable def ARSys.derivative (G : ℝ) (type : ReguType) (I : ChainInteractions) (s : ARSys) : Res (List ℝ × ARSys) := do
  let rp ← s.R.posPhyTime type (kinetic s.P) 1
  let pot ← potentialChain G s.P s.view
  let rv ← rp.1.velPhyTime type pot 1
  let s := { s with R := rv.1 }
  let n := s.P.num
  let y := [rp.2]
  let newt ← I.newtonianAcc s.P s.view
  let ext ← if I.velIndep || I.velDep then I.extraAcc s.P s.view else .ok (fun _ => 0)
  let acc := if I.velIndep || I.velDep then arrayAdd n ext newt else fun _ => 0
  let y := addScaledCoordsTo y n s.cvel rp.2
  let cacc ← Chain.toChain n (if I.velIndep || I.velDep then acc else newt) (fun _ => 0) s.index
  let y := addScaledCoordsTo y n cacc rv.2
  let y := if I.velDep then addScaledCoordsTo y n cacc rv.2 else y
  let y := y ++ [ReguSys.domegaDt type n s.P.mass s.P.vel newt * rv.2]
  .ok (y ++ [ReguSys.dbindEDt type (I.velIndep || I.velDep) n s.P.mass s.P.vel acc * rv.2], s)

end SpaceHub.Sys

namespace SpaceHub.Radau
open SpaceHub SpaceHub.Sys

/-! ### tables -/

/-- The table the sub-steps `h_`, Gauss-Radau.hpp:134-137; the decimal literals, exactly. -/
def hList : List ℚ :=
  [0.0562625605369221464656521910318, 0.180240691736892364987579942780, 0.352624717113169637373907769648,
    0.547153626330555383001448554766, 0.734210177215410531523210605558, 0.885320946839095768090359771030,
    0.977520613561287501891174488626, 1.000000000000000000000000000000]

/-- The table `est_b_`, Gauss-Radau.hpp:138-140; the decimal literals, exactly. -/
def estBList : List ℚ :=
  [1.0, 2.0, 1.0,
    3.0, 3.0, 1.0,
    4.0, 6.0, 4.0,
    1.0, 5.0, 10.0,
    10.0, 5.0, 1.0,
    6.0, 15.0, 20.0,
    15.0, 6.0, 1.0,
    7.0, 21.0, 35.0,
    35.0, 21.0, 7.0,
    1.0]

/-- The table `g2b_`, Gauss-Radau.hpp:141-151; the decimal literals, exactly. -/
def g2bList : List ℚ :=
  [1.0000000000000000000000000000000, -0.0562625605369221464656521910318, 1.0000000000000000000000000000000,
    0.0101408028300636299864818047860, -0.236503252273814511453232133812, 1.0000000000000000000000000000000,
    -0.00357589772925161759493445889941, 0.0935376952594620658957484611455, -0.589127969386984148827139903460,
    1.0000000000000000000000000000000, 0.00195656540994722107690056706032, -0.0547553868890686864408084294395,
    0.415881200082306861688621911192, -1.13628159571753953182858845823, 1.0000000000000000000000000000000,
    -0.00143653023637089154244595529986, 0.0421585277212687077072973470356, -0.360099596502056812289766461058,
    1.25015071184069102585054407511, -1.87049177293295006335179906379, 1.0000000000000000000000000000000,
    0.00127179030902686774929431161484, -0.0387603579159067703699046248206, 0.360962243452845983225339808035,
    -1.46688420840042696437015525831, 2.90613625930842930142379130730, -2.75581271977204583144215883482,
    1.0000000000000000000000000000000]

/-- The table `b2g_`, Gauss-Radau.hpp:153-166; the decimal literals, exactly. -/
def b2gList : List ℚ :=
  [1.0000000000000000000000000000000, 0.0562625605369221464656521910318, 1.0000000000000000000000000000000,
    0.00316547571817082924999048003940, 0.236503252273814511453232133812, 1.0000000000000000000000000000000,
    0.000178097769221743388112527921974, 0.0457929855060279188954538730112, 0.589127969386984148827139903460,
    1.0000000000000000000000000000000, 0.0000100202365223291272095672152244, 0.00843185715352570154449997416277,
    0.253534069054569266521461597106, 1.13628159571753953182858845823, 1.0000000000000000000000000000000,
    5.63764163931820761038385011543e-7, 0.00152978400250046581894900795889, 0.0978342365324440053653648396422,
    0.875254664684091091229724588371, 1.87049177293295006335179906379, 1.0000000000000000000000000000000,
    3.17188154017613664758548178792e-8, 0.000276293090982647659313022639369, 0.0360285539837364596003870741266,
    0.576733000277078731354459606135, 2.24858876076915979339268952601, 2.75581271977204583144215883482,
    1.0000000000000000000000000000000]

/-- The table `rr_` (not used by the integrator), Gauss-Radau.hpp:168-178; the decimal literals, exactly. -/
def rrList : List ℚ :=
  [0.0562625605369221464656521910318, 0.180240691736892364987579942780, 0.123978131199970218521927751748,
    0.352624717113169637373907769648, 0.296362156576247490908255578616, 0.172384025376277272386327826868,
    0.547153626330555383001448554766, 0.490891065793633236535796363735, 0.366912934593663018013868611986,
    0.194528909217385745627540785118, 0.734210177215410531523210605560, 0.677947616678488385057558414527,
    0.553969485478518166535630662777, 0.381585460102240894149302835910, 0.187056550884855148521762050792,
    0.885320946839095768090359771033, 0.829058386302173621624707579995, 0.705080255102203403102779828251,
    0.532696229725926130716452001382, 0.338167320508540385088911216264, 0.151110769623685236567149165472,
    0.977520613561287501891174488623, 0.921258053024365355425522297595, 0.797279921824395136903594545847,
    0.624895896448117864517266718977, 0.430366987230732118889725933859, 0.243310436345876970367963883068,
    0.0921996667221917338008147175960]

/-- The table `rs_`, Gauss-Radau.hpp:180-190; the decimal literals, exactly. -/
def rsList : List ℚ :=
  [17.7738089140780008407526623988, 44.7509303845559921986046250353, 8.06593864838188668853712230228,
    55.5095216749226862607771099218, 19.5740293777069706783363904372, 5.80100155926406148232868035040,
    52.1625022561530373477792209295, 28.5409022679299111073474153873, 14.0104739330160380493901680907,
    5.14062410581093422863632030242, 50.8080910907447463230817180713, 37.3038175637124211672269545084,
    25.2900342103279709751944749769, 14.0099072392295085641729477931, 5.34597689987110751412148951162,
    70.9853803416487645973553313623, 62.8448441358018197140240262907, 52.1020450666394756209272428984,
    36.7361232269326597782946191852, 19.5691943377340508924875261834, 6.61766201370242448744713000122,
    230.858165231426653338394745299, 225.668615322657271889813588120, 207.899029180855701108223308386,
    165.753721732680276715639824926, 103.578820531755117818385634006, 44.5769049331641486107191459286,
    10.8460261902368446847064289379]

/-- The table `dy_tab_` row by row (not used by the integrator), Gauss-Radau.hpp:192-219. -/
def dyTabList : List ℚ :=
  [0.0562625605369221464656521910318, 0.00158273785908541462499524001970, 0.0000593659230739144627041759739914,
    0.00000250505913058228180239180380611, 1.12752832786364152207677002309e-7, 5.28646923362689441264246964655e-9,
    2.54940253100151062270181599871e-10, 1.25506424954273151819358800414e-11, 0.180240691736892364987579942780,
    0.0162433534788967298294907940929, 0.00195180884477546910833411890707, 0.000263846532240386495674175398784,
    0.0000380447051867100281790176392125, 0.00000571433664981562689658801067631, 8.82819420497352567991757413913e-7,
    1.39229985150554621008628058320e-7, 0.352624717113169637373907769648, 0.0621720955595714558583705338679,
    0.0146156117393512231817256964709, 0.00386536946626848473895005296513, 0.00109041985166464635032388891393,
    0.000320424159773191931155202095438, 0.0000968481245967830356094210040723, 0.0000298821622215214211602422306320,
    0.547153626330555383001448554766, 0.149688545403338514457694770608, 0.0546017536250551034318076010137,
    0.0224066606249673359059495457779, 0.00980790849192715700573587464261, 0.00447202724839682719295985641144,
    0.00209733079372232517035152665694, 0.00100411688072492320816995569635, 0.734210177215410531523210605558,
    0.269532292163342269000521386861, 0.131928901329682223034686180826, 0.0726476565188252963150628540336,
    0.0426709190135767959553564310090, 0.0261078525090855417556446504266, 0.0164302723006367109483981032005,
    0.0105553639953544391415383915456, 0.885320946839095768090359771030, 0.391896589456036517542394779982,
    0.231302839760153763241855927822, 0.153582936827273232576575659664, 0.108776152840200455366260812717,
    0.0802515055216670529098759748592, 0.0608985761603187406674123556033, 0.0471754369689804011020473412255,
    0.977520613561287501891174488626, 0.477773274968617987575421375301, 0.311355483260339452636702056124,
    0.228267302274238651296621590670, 0.178508794700074915504569446223, 0.145413355434419281660632922534,
    0.121838187792222099875417308339, 0.104211922575117276292808124599, 1,
    0.5, 0.333333333333333333333333333334, 0.250000000000000000000000000000,
    0.200000000000000000000000000000, 0.166666666666666666666666666667, 0.142857142857142857142857142857,
    0.125000000000000000000000000000]

/-- The tables used by the integrator.  `rs n j`, `g2b n j`, ... are entries of row `n`, column `j`. -/
structure Tab where
  h : Nat → ℝ
  rs : Nat → Nat → ℝ
  g2b : Nat → Nat → ℝ
  b2g : Nat → Nat → ℝ
  estB : Nat → Nat → ℝ

/-- Index of a triangular table, Gauss-Radau.hpp:62, 72, 82, 91, 100. -/
def tri (l : List ℚ) (n j : Nat) : ℚ := l.getD (n * (n + 1) / 2 + j) 0

/-- The tables of class `Radau`, Gauss-Radau.hpp:43-204. -/
noncomputable def code : Tab where
  h := fun i => ((hList.getD i 0 : ℚ) : ℝ)
  rs := fun n j => ((tri rsList n j : ℚ) : ℝ)
  g2b := fun n j => ((tri g2bList n j : ℚ) : ℝ)
  b2g := fun n j => ((tri b2gList n j : ℚ) : ℝ)
  estB := fun n j => ((tri estBList n j : ℚ) : ℝ)

/-- `Radau::transform_g2b`, Gauss-Radau.hpp:290-298, entry `i` of `B[stage]`. -/
noncomputable def transformG2B (T : Tab) (G : Nat → Arr ℝ) (stage : Nat) : Arr ℝ := fun i =>
  forLoop 0 (6 - stage) (fun k x => x + G (5 - k) i * T.g2b (5 - k) stage) (G 6 i * T.g2b 6 stage)

/-- `Radau::transform_b2g`, Gauss-Radau.hpp:300-308, entry `i` of `G[stage]`. -/
noncomputable def transformB2G (T : Tab) (B : Nat → Arr ℝ) (stage : Nat) : Arr ℝ := fun i =>
  forLoop 0 (6 - stage) (fun k x => x + B (5 - k) i * T.b2g (5 - k) stage) (B 6 i * T.b2g 6 stage)

/-! ### the integrator -/

/-- What the integrator and the iterator use of a particle system: `write_to_scalar_array`, `read_from_scalar_array`,
`evaluate_general_derivative`, and the mask computed in IAS15.hpp:141-167 (variables left out of the error estimate). -/
structure RSys (S : Type) where
  write : S → List ℝ
  read : S → List ℝ → Res S
  deriv : S → Res (List ℝ × S)
  mask : ℝ → S → Nat → Bool

/-- Members of `GaussRadau`, Gauss-Radau.hpp:272-283 (`tmp_array_`, `tmp_state_` are local here). -/
structure GR where
  num : Nat
  b : Arr (Arr ℝ)
  g : Arr (Arr ℝ)
  old : Arr (Arr ℝ)
  dy0 : Arr ℝ
  dyh : Arr ℝ
  dg : Arr ℝ
  input : List ℝ

namespace GR

/-- Constructor, Gauss-Radau.hpp:314-324. -/
def new : GR where
  num := 0
  b := fun _ _ => 0
  g := fun _ _ => 0
  old := fun _ _ => 0
  dy0 := fun _ => 0
  dyh := fun _ => 0
  dg := fun _ => 0
  input := [0]

/-- `check_particle_size`, Gauss-Radau.hpp:326-345. -/
def checkSize (r : GR) (n : Nat) : GR := if r.num ≠ n then { GR.new with num := n, input := r.input } else r

/-- the scalar array as a function of the index -/
def toArr (l : List ℝ) : Arr ℝ := fun i => l.getD i 0

/-- The sum of `integrate_to` for one variable, Gauss-Radau.hpp:372-383, without the factor `h_n * step_size`. -/
noncomputable def horner (b : Nat → ℝ) (d0 hn : ℝ) : ℝ :=
  (((((((b 6 * (7 * hn / 8)) + b 5) * (6 * hn / 7) + b 4) * (5 * hn / 6) + b 3) * (4 * hn / 5) + b 2) * (3 * hn / 4) + b 1) *
    (2 * hn / 3) + b 0) * (1 * hn / 2) + d0

/-- The state that `integrate_to` hands to the system, Gauss-Radau.hpp:357-384. -/
noncomputable def stageState (T : Tab) (r : GR) (H : ℝ) (stage : Nat) : List ℝ :=
  (List.range r.input.length).map fun i =>
    r.input.getD i 0 + horner (fun j => r.b j i) (r.dy0 i) (T.h stage) * (T.h stage * H)

/-- The state that `evaluate` hands to the system, Gauss-Radau.hpp:388-394. -/
noncomputable def finalState (r : GR) (H : ℝ) : List ℝ :=
  (List.range r.input.length).map fun i =>
    forLoop 0 7 (fun k x => x + r.b (6 - k) i * (H / ((7 - k : Nat) + 1))) (r.input.getD i 0) + r.dy0 i * H

/-- `update_b_table`, Gauss-Radau.hpp:397-480. -/
noncomputable def updateB (T : Tab) (r : GR) (stage : Nat) : GR :=
  let new : Arr ℝ := fun i =>
    forLoop 0 stage (fun j x => x - r.g j i * T.rs stage (j + 1)) ((r.dyh i - r.dy0 i) * T.rs stage 0)
  let dg : Arr ℝ := fun i => new i - r.g stage i
  { r with g := r.g.set stage new, dg := dg, b := forLoop 0 (stage + 1) (fun j b => b.set j (fun i => b j i + dg i * T.g2b stage j)) r.b }

/-- `Q`, Gauss-Radau.hpp:500-507. -/
noncomputable def powers (q : ℝ) (i : Nat) : ℝ :=
  let q0 := q
  let q1 := q0 * q0
  let q2 := q1 * q0
  let q3 := q1 * q1
  let q4 := q2 * q1
  let q5 := q2 * q2
  let q6 := q3 * q2
  [q0, q1, q2, q3, q4, q5, q6].getD i 0

/-- One pass of the loop in `predict`, Gauss-Radau.hpp:509-517: the new `b_[i]` and `old_b_[i]`. -/
noncomputable def predictRow (T : Tab) (q : ℝ) (i : Nat) (bo : Arr (Arr ℝ) × Arr (Arr ℝ)) : Arr (Arr ℝ) × Arr (Arr ℝ) :=
  let tmp : Arr ℝ := fun v => bo.1 i v - bo.2 i v
  let e : Arr ℝ := fun v =>
    forLoop 0 (6 - i) (fun k x => x + bo.1 (5 - k) v * T.estB (5 - k) i) (bo.1 6 v * T.estB 6 i) * powers q i
  (bo.1.set i (fun v => e v + tmp v), bo.2.set i e)

/-- `predict`, Gauss-Radau.hpp:498-519. -/
noncomputable def predict (T : Tab) (r : GR) (q : ℝ) : GR :=
  let bo := forLoop 0 7 (predictRow T q) (r.b, r.old)
  { r with b := bo.1, old := bo.2, g := forLoop 0 7 (fun stage g => g.set stage (transformB2G T bo.1 stage)) r.g }

end GR

variable {S : Type}

/-- The loop of `correct`, Gauss-Radau.hpp:490-495: `m` stages to go, the next is `stage`. -/
noncomputable def sweep (T : Tab) (O : RSys S) (H : ℝ) : Nat → Nat → GR → S → Res (S × GR)
  | 0, _, r, s => .ok (s, r)
  | m + 1, stage, r, s => do
    let s ← O.read s (r.stageState T H stage)
    let d ← O.deriv s
    let r := GR.updateB T { r with dyh := GR.toArr d.1 } stage
    let s ← O.read d.2 r.input
    sweep T O H m (stage + 1) r s

/-- `correct`, Gauss-Radau.hpp:484-496. -/
noncomputable def correct (T : Tab) (O : RSys S) (H : ℝ) (r : GR) (s : S) : Res (S × GR) := do
  let input := O.write s
  let r := ({ r with input := input } : GR).checkSize input.length
  let d ← O.deriv s
  sweep T O H 7 0 { r with dy0 := GR.toArr d.1 } d.2

/-- `evaluate`, Gauss-Radau.hpp:387-395. -/
noncomputable def evaluate (O : RSys S) (H : ℝ) (r : GR) (s : S) : Res S := O.read s (r.finalState H)

/-- `integrate`, Gauss-Radau.hpp:348-353. -/
noncomputable def integrate (T : Tab) (O : RSys S) (H : ℝ) (r : GR) (s : S) : Res (S × GR) := do
  let c ← correct T O H r s
  let s ← evaluate O H c.2 c.1
  .ok (s, c.2.predict T 1)

/-! ### the IAS15 iterator -/

open Ctl Fl

/-- `MaxRatioError::error(scale, diff)` on scalar arrays, max-ratio-error.hpp:117-137. -/
noncomputable def maxRatio2 (atol rtol : Fl) (n : Nat) (scale diff : Arr Fl) : Fl :=
  let m := forLoop 0 n (fun i (m : Fl × Fl) =>
    (stdMax m.1 (abs (diff i)), stdMax m.2 (add atol (mul (abs (scale i)) rtol)))) (fin 0, fin 0)
  div m.1 m.2

/-- `calc_step_error`, IAS15.hpp:130-186, given the mask (141-167). -/
noncomputable def stepError (n : Nat) (mask : Nat → Bool) (dyh b6 : Arr Fl) : Fl :=
  let m := forLoop 0 n (fun i (m : Fl × Fl) =>
    if mask i then m else (stdMax m.1 (abs (b6 i)), stdMax m.2 (abs (dyh i)))) (fin 0, fin 0)
  if isZero m.2 then fin 0 else div m.1 (mul m.2 (fin (5 / 10 ^ 10)))

/-- A number; an infinity or NaN ends the run with `nan`. -/
def toRes : Fl → Res ℝ
  | fin r => .ok r
  | _ => .nan

/-- Members of `IAS15`, IAS15.hpp:66-71, other than the error checker and the step controller, which are fixed by the
constructor (79-85). -/
structure IAS where
  gr : GR
  last : ℝ
  warm : Bool

/-- The step controller after the constructor, IAS15.hpp:82-83. -/
noncomputable def ctrl : PID := (PID.new.setGuards (85 / 100) 1).setLimiter (2 / 100) 4

/-- A new iterator; `big` is `math::max_value`, IAS15.hpp:69-71. -/
def IAS.new (big : ℝ) : IAS := { gr := GR.new, last := big, warm := false }

/-- Error of the predictor-corrector iteration, IAS15.hpp:80-81, 120: `MaxRatioError` (spaceHub.hpp:172) with tolerances
0 and 1e-16 on `dy_h()` and `diff_b6()`. -/
noncomputable def pcError (r : GR) : Fl :=
  maxRatio2 (fin 0) (fin (1 / 10 ^ 16)) r.num (fun i => fin (r.dyh i)) (fun i => fin (r.dg i))

/-- `iterate`, IAS15.hpp:87-116, with `in_converged_window` (118-128).  `k` is the loop counter; `fuel` bounds the number
of passes, of which the program has no bound (`k = 0` after a rejection). -/
noncomputable def iterate (T : Tab) (O : RSys S) (big : ℝ) : Nat → Nat → ℝ → IAS → S → Res (S × IAS × ℝ)
  | 0, _, _, _, _ => .diverge
  | fuel + 1, k, h, it, s =>
    if k < 30 then do
      let c ← correct T O h it.gr s
      let s := c.1
      let e ← toRes (pcError c.2)
      if e < 1 ∨ e ≥ it.last then do
        let se ← toRes (stepError c.2.num (O.mask h s) (fun i => fin (c.2.dyh i)) (fun i => fin (c.2.b 6 i)))
        let q ← ctrl.next 7 se
        if q > ctrl.limMin 0 then do
          let s ← evaluate O h c.2 s
          let q := ctrl.limiter0 q
          .ok (s, { gr := c.2.predict T q, last := big, warm := true }, h * q)
        else
          iterate T O big fuel 1 (h * q) { gr := if it.warm then c.2.predict T q else c.2, last := big, warm := it.warm } s
      else iterate T O big fuel (k + 1) h { gr := c.2, last := e, warm := it.warm } s
    else .abort

/-! ### the particle systems -/

/-- The mask, IAS15.hpp:149-167: the time (unless the system is regularised) and the coordinates of slowly varying
particles. -/
def maskOf (regu velDep : Bool) (n : Nat) (slow : Nat → Bool) (i : Nat) : Bool :=
  (!regu && i == 0) || (List.range n).any fun p => slow p &&
    ((decide (posOffset + 3 * p ≤ i) && decide (i ≤ posOffset + 3 * p + 2)) ||
     (decide (velOffset n + 3 * p ≤ i) && decide (i ≤ velOffset n + 3 * p + 2)) ||
     (velDep && decide (auxOffset n + 3 * p ≤ i) && decide (i ≤ auxOffset n + 3 * p + 2)))

open Classical in
/-- `norm2(pos) * 1e-12 > norm2(vel) * dt2`, IAS15.hpp:158-160. -/
noncomputable def slowVarying (p v : V3 ℝ) (dt : ℝ) : Bool :=
  decide ((p.x * p.x + p.y * p.y + p.z * p.z) * (1 / 10 ^ 12) > (v.x * v.x + v.y * v.y + v.z * v.z) * (dt * dt))

/-- `SimpleSystem` under IAS15. -/
noncomputable def radauSimple (I : Interactions) : RSys Simple where
  write := fun s => s.write I
  read := fun s y => s.read I y
  deriv := fun s => .ok (s.derivative I, s)
  mask := fun h s => maskOf false I.velDep s.P.num (fun p => slowVarying (s.P.pos p) (s.P.vel p) (h / 1))

/-- `RegularizedSystem` under IAS15 (`step_scale` is not 0 when the mask is computed: the derivative has been divided by
it). -/
noncomputable def radauRegu (G : ℝ) (type : ReguType) (I : Interactions) : RSys ReguSys where
  write := fun s => s.write I
  read := fun s y => s.read I y
  deriv := fun s => s.derivative G type I
  mask := fun h s => maskOf true I.velDep s.P.num (fun p => slowVarying (s.P.pos p) (s.P.vel p) (h / s.stepScale))

/-- `ChainSystem` under IAS15. -/
noncomputable def radauChain (I : ChainInteractions) : RSys ChainSys where
  write := fun s => s.write I
  read := fun s y => s.read I y
  deriv := fun s => do let d ← s.derivative I; .ok (d, s)
  mask := fun h s => maskOf false I.velDep s.P.num (fun p => slowVarying (s.cpos p) (s.cvel p) (h / 1))

/-- `ARchainSystem` under IAS15. -/
noncomputable def radauAR (G : ℝ) (type : ReguType) (I : ChainInteractions) : RSys ARSys where
  write := fun s => s.write I
  read := fun s y => s.read I y
  deriv := fun s => s.derivative G type I
  mask := fun h s => maskOf true I.velDep s.P.num (fun p => slowVarying (s.cpos p) (s.cvel p) (h / s.stepScale))

end SpaceHub.Radau
