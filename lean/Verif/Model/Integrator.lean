import Verif.Model.System

/-
Model of src/integrator/symplectic/symplectic-integrator.hpp and of the sub-step loop of
src/ode-iterator/Bulirsch-Stoer.hpp (particle-system overload).
Simplification: the decimal coefficients are taken as exact rationals (the compiled code rounds them to the scalar
type).
-/

set_option autoImplicit false

namespace SpaceHub.Integrator
open SpaceHub Sys

/-- One call of the system's interface: `drift(h)` or `kick(h)`. -/
inductive Op
  | drift (h : ℝ)
  | kick (h : ℝ)

/-- The two calls every particle system offers to an integrator. -/
structure Ops (S : Type) where
  drift : ℝ → S → Res S
  kick : ℝ → S → Res S

/-- One call. -/
def Ops.apply {S : Type} (o : Ops S) : Op → S → Res S
  | .drift h, s => o.drift h s
  | .kick h, s => o.kick h s

/-- A sequence of calls. -/
def Ops.run {S : Type} (o : Ops S) : List Op → S → Res S
  | [], s => .ok s
  | c :: cs, s => o.apply c s >>= o.run cs

/-- `drift(c * step_size)` or `kick(c * step_size)`. -/
inductive Stage
  | drift (c : ℚ)
  | kick (c : ℚ)
  deriving DecidableEq

/-- The call made for a given step size. -/
noncomputable def Stage.op (h : ℝ) : Stage → Op
  | .drift c => .drift (c * h)
  | .kick c => .kick (c * h)

/-- `integrate(system, step_size)` for an integrator given by its sequence of stages. -/
noncomputable def integrate {S : Type} (o : Ops S) (stages : List Stage) (h : ℝ) (s : S) : Res S :=
  o.run (stages.map (Stage.op h)) s

/-- `Symplectic2nd::integrate (= LeapFrogDKD)`, symplectic-integrator.hpp:198-204. -/
def symplectic2nd : List Stage :=
  [.drift (0.5), .kick (1), .drift (0.5)]

/-- `LeapFrogKDK::integrate`, symplectic-integrator.hpp:206-212. -/
def leapFrogKDK : List Stage :=
  [.kick (0.5), .drift (1), .kick (0.5)]

/-- `Symplectic4th::integrate`, symplectic-integrator.hpp:217-227. -/
def symplectic4th : List Stage :=
  [.drift (6.7560359597983000e-1), .kick (1.3512071919596600e0), .drift (-1.7560359597983000e-1),
   .kick (-1.7024143839193200e0), .drift (-1.7560359597983000e-1), .kick (1.3512071919596600e0),
   .drift (6.7560359597983000e-1)]

/-- `Symplectic6th::integrate`, symplectic-integrator.hpp:232-251. -/
def symplectic6th : List Stage :=
  [.drift (3.9225680523877998e-1), .kick (7.8451361047755996e-1), .drift (5.1004341191845848e-1),
   .kick (2.3557321335935699e-1), .drift (-4.7105338540975655e-1), .kick (-1.1776799841788701e0),
   .drift (6.8753168252518093e-2), .kick (1.3151863206839063e0), .drift (6.8753168252518093e-2),
   .kick (-1.1776799841788701e0), .drift (-4.7105338540975655e-1), .kick (2.3557321335935699e-1),
   .drift (5.1004341191845848e-1), .kick (7.8451361047755996e-1), .drift (3.9225680523877998e-1)]

/-- `Symplectic8th::integrate`, symplectic-integrator.hpp:256-291. -/
def symplectic8th : List Stage :=
  [.drift (5.21213104349955048e-1), .kick (1.04242620869991010e0), .drift (1.43131625920352512e0),
   .kick (1.82020630970713992e0), .drift (9.88973118915378424e-1), .kick (1.57739928123617007e-1),
   .drift (1.29888362714548355e0), .kick (2.44002732616735019e0), .drift (1.21642871598513458e0),
   .kick (-7.16989419708119989e-3), .drift (-1.22708085895116059e0), .kick (-2.44699182370524015e0),
   .drift (-2.03140778260310517e0), .kick (-1.61582374150096997e0), .drift (-1.69832618404521085e0),
   .kick (-1.78082862658945151e0), .drift (-1.69832618404521085e0), .kick (-1.61582374150096997e0),
   .drift (-2.03140778260310517e0), .kick (-2.44699182370524015e0), .drift (-1.22708085895116059e0),
   .kick (-7.16989419708119989e-3), .drift (1.21642871598513458e0), .kick (2.44002732616735019e0),
   .drift (1.29888362714548355e0), .kick (1.57739928123617007e-1), .drift (9.88973118915378424e-1),
   .kick (1.82020630970713992e0), .drift (1.43131625920352512e0), .kick (1.04242620869991010e0),
   .drift (5.21213104349955048e-1)]

/-- `Symplectic10th::integrate`, symplectic-integrator.hpp:296-363. -/
def symplectic10th : List Stage :=
  [.drift (3.0610967201933609e-01), .kick (6.1221934403867218e-01), .drift (-9.4012698954724694e-02),
   .kick (-8.0024474194812156e-01), .drift (-6.6002635995076209e-01), .kick (-5.1980797795340250e-01),
   .drift (-1.5240397828727220e-01), .kick (2.1500002137885812e-01), .drift (-1.1750569210727700e-01),
   .kick (-4.5001140559341213e-01), .drift (2.2250778443570857e-01), .kick (8.9502697446482926e-01),
   .drift (5.1288848042847668e-01), .kick (1.3074998639212410e-01), .drift (3.3095796002497074e-01),
   .kick (5.3116593365781739e-01), .drift (-6.0050191119721985e-02), .kick (-6.5126631589726136e-01),
   .drift (-7.6956706144236287e-01), .kick (-8.8786780698746448e-01), .drift (-7.6872229417056015e-02),
   .kick (7.3412334815335245e-01), .drift (4.2477286784491525e-01), .kick (1.1542238753647800e-01),
   .drift (4.3160892192959932e-01), .kick (7.4779545632272060e-01), .drift (5.5434862753225678e-02),
   .kick (-6.3692573081626924e-01), .drift (-1.9288621063874828e-01), .kick (2.5115330953877268e-01),
   .drift (3.3904387248169282e-01), .kick (4.2693443542461296e-01), .drift (3.3904387248169282e-01),
   .kick (2.5115330953877268e-01), .drift (-1.9288621063874828e-01), .kick (-6.3692573081626924e-01),
   .drift (5.5434862753225678e-02), .kick (7.4779545632272060e-01), .drift (4.3160892192959932e-01),
   .kick (1.1542238753647800e-01), .drift (4.2477286784491525e-01), .kick (7.3412334815335245e-01),
   .drift (-7.6872229417056015e-02), .kick (-8.8786780698746448e-01), .drift (-7.6956706144236287e-01),
   .kick (-6.5126631589726136e-01), .drift (-6.0050191119721985e-02), .kick (5.3116593365781739e-01),
   .drift (3.3095796002497074e-01), .kick (1.3074998639212410e-01), .drift (5.1288848042847668e-01),
   .kick (8.9502697446482926e-01), .drift (2.2250778443570857e-01), .kick (-4.5001140559341213e-01),
   .drift (-1.1750569210727700e-01), .kick (2.1500002137885812e-01), .drift (-1.5240397828727220e-01),
   .kick (-5.1980797795340250e-01), .drift (-6.6002635995076209e-01), .kick (-8.0024474194812156e-01),
   .drift (-9.4012698954724694e-02), .kick (6.1221934403867218e-01), .drift (3.0610967201933609e-01)]

/-- `integrate_by_n_steps`, Bulirsch-Stoer.hpp:380-407, leap-frog DKD branch, as the sequence of calls; `h` =
`macro_step_size / steps`. -/
noncomputable def substepsDKD (macroStep : ℝ) (steps : Nat) : List Op :=
  let h := macroStep / steps
  [.drift (1 / 2 * h)] ++ forLoop 1 steps (fun _ l => l ++ [.kick h, .drift h]) [] ++ [.kick h, .drift (1 / 2 * h)]

/-- `integrate_by_n_steps`, Bulirsch-Stoer.hpp:380-407, leap-frog KDK branch. -/
noncomputable def substepsKDK (macroStep : ℝ) (steps : Nat) : List Op :=
  let h := macroStep / steps
  [.kick (1 / 2 * h)] ++ forLoop 1 steps (fun _ l => l ++ [.drift h, .kick h]) [] ++ [.drift h, .kick (1 / 2 * h)]

/-- `SimpleSystem` as seen by an integrator. -/
noncomputable def simpleOps (I : Interactions) : Ops Simple :=
  { drift := fun h s => .ok (s.drift h), kick := fun h s => .ok (s.kick I h) }

/-- `ChainSystem` as seen by an integrator. -/
noncomputable def chainOps (I : ChainInteractions) : Ops ChainSys :=
  { drift := ChainSys.drift, kick := ChainSys.kick I }

/-- `RegularizedSystem` as seen by an integrator. -/
noncomputable def reguOps (G : ℝ) (type : ReguType) (I : Interactions) : Ops ReguSys :=
  { drift := ReguSys.drift type, kick := ReguSys.kick G type I }

/-- `ARchainSystem` as seen by an integrator. -/
noncomputable def arOps (G : ℝ) (type : ReguType) (I : ChainInteractions) : Ops ARSys :=
  { drift := ARSys.drift type, kick := ARSys.kick G type I }

/-! ### `Simulator::advance_one_step`, simulator.hpp:429-434, with an iterator that makes the calls `ops`
(e.g. `ConstOdeIterator`, const-iterator.hpp:49-58, for the calls of its integrator). -/

/-- plain system (`post_iter_process` is empty, base-system.hpp:98) -/
noncomputable def simpleStep (I : Interactions) (ops : List Op) (s : Simple) : Res Simple :=
  (simpleOps I).run ops (s.preIter I)

/-- regularised system (`post_iter_process` is empty, regu-system.hpp:139) -/
noncomputable def reguStep (G : ℝ) (type : ReguType) (I : Interactions) (ops : List Op) (s : ReguSys) : Res ReguSys :=
  (reguOps G type I).run ops (s.preIter I)

/-- chain system; a relation because ties in the distances leave the new index open -/
def ChainStep (I : ChainInteractions) (ops : List Op) (s : ChainSys) (r : Res ChainSys) : Prop :=
  (∃ s1 idx, (chainOps I).run ops (s.preIter I) = .ok s1 ∧ IndexOf s1.P idx ∧ r = s1.postIter idx) ∨
  ((∀ s1, (chainOps I).run ops (s.preIter I) ≠ .ok s1) ∧ r = (chainOps I).run ops (s.preIter I))

/-- AR-chain system -/
def ARStep (G : ℝ) (type : ReguType) (I : ChainInteractions) (ops : List Op) (s : ARSys) (r : Res ARSys) : Prop :=
  (∃ s1 idx, (arOps G type I).run ops (s.preIter I) = .ok s1 ∧ IndexOf s1.P idx ∧ r = s1.postIter idx) ∨
  ((∀ s1, (arOps G type I).run ops (s.preIter I) ≠ .ok s1) ∧ r = (arOps G type I).run ops (s.preIter I))

/-- Consecutive steps; a step that does not return normally ends them. -/
def steps {S : Type} (step : List Op → S → Res S) : List (List Op) → S → Res S
  | [], s => .ok s
  | ops :: rest, s => step ops s >>= steps step rest

/-- Consecutive steps of a system whose step is a relation. -/
inductive Steps {S : Type} (step : List Op → S → Res S → Prop) : List (List Op) → S → Res S → Prop
  | nil (s : S) : Steps step [] s (.ok s)
  | cons (ops : List Op) (rest : List (List Op)) (s s1 : S) (r : Res S) (h : step ops s (.ok s1))
      (t : Steps step rest s1 r) : Steps step (ops :: rest) s r
  | fail (ops : List Op) (rest : List (List Op)) (s : S) (r : Res S) (h : step ops s r) (hr : ∀ s1, r ≠ .ok s1) :
      Steps step (ops :: rest) s r

end SpaceHub.Integrator
