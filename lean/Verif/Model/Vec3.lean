import Verif.Model.Basic
import Mathlib.Algebra.Module.Defs
import Mathlib.Algebra.Field.Basic
import Mathlib.Tactic.Ring

/-
Model of src/vector/vector3.hpp (`Vec3`), over an arbitrary commutative ring or field of scalars
(exact arithmetic instead of IEEE floating point).
-/

set_option autoImplicit false

namespace SpaceHub

/-- `Vec3<T>`, vector3.hpp:37-56. -/
@[ext] structure V3 (K : Type) where
  x : K
  y : K
  z : K
  deriving DecidableEq, Repr

namespace V3
variable {K : Type}

/-- `operator+`, vector3.hpp:81-85. -/
instance [Add K] : Add (V3 K) := ⟨fun a b => ⟨a.x + b.x, a.y + b.y, a.z + b.z⟩⟩
/-- `operator-`, vector3.hpp:87-91. -/
instance [Sub K] : Sub (V3 K) := ⟨fun a b => ⟨a.x - b.x, a.y - b.y, a.z - b.z⟩⟩
/-- unary `operator-`, vector3.hpp:117-118. -/
instance [Neg K] : Neg (V3 K) := ⟨fun a => ⟨-a.x, -a.y, -a.z⟩⟩
/-- the default `Vec3{}`, vector3.hpp:47-56. -/
instance [Zero K] : Zero (V3 K) := ⟨⟨0, 0, 0⟩⟩
/-- scalar `operator*`, vector3.hpp:111-112 (`v * c`) and 205-206 (`c * v`). -/
instance [Mul K] : SMul K (V3 K) := ⟨fun c a => ⟨a.x * c, a.y * c, a.z * c⟩⟩
/-- `operator/` by a scalar, vector3.hpp:114-115. -/
instance [Div K] : HDiv (V3 K) K (V3 K) := ⟨fun a c => ⟨a.x / c, a.y / c, a.z / c⟩⟩

/-- `dot`, vector3.hpp:233-237. -/
def dot [Add K] [Mul K] (a b : V3 K) : K := a.x * b.x + a.y * b.y + a.z * b.z
/-- `norm2`, vector3.hpp:251-255. -/
def norm2 [Add K] [Mul K] (a : V3 K) : K := a.x * a.x + a.y * a.y + a.z * a.z
/-- `cross`, vector3.hpp:257-261. -/
def cross [Sub K] [Mul K] (a b : V3 K) : V3 K :=
  ⟨a.y * b.z - a.z * b.y, a.z * b.x - a.x * b.z, a.x * b.y - a.y * b.x⟩

section lemmas
@[simp] theorem add_x [Add K] (a b : V3 K) : (a + b).x = a.x + b.x := rfl
@[simp] theorem add_y [Add K] (a b : V3 K) : (a + b).y = a.y + b.y := rfl
@[simp] theorem add_z [Add K] (a b : V3 K) : (a + b).z = a.z + b.z := rfl
@[simp] theorem sub_x [Sub K] (a b : V3 K) : (a - b).x = a.x - b.x := rfl
@[simp] theorem sub_y [Sub K] (a b : V3 K) : (a - b).y = a.y - b.y := rfl
@[simp] theorem sub_z [Sub K] (a b : V3 K) : (a - b).z = a.z - b.z := rfl
@[simp] theorem neg_x [Neg K] (a : V3 K) : (-a).x = -a.x := rfl
@[simp] theorem neg_y [Neg K] (a : V3 K) : (-a).y = -a.y := rfl
@[simp] theorem neg_z [Neg K] (a : V3 K) : (-a).z = -a.z := rfl
@[simp] theorem zero_x [Zero K] : (0 : V3 K).x = 0 := rfl
@[simp] theorem zero_y [Zero K] : (0 : V3 K).y = 0 := rfl
@[simp] theorem zero_z [Zero K] : (0 : V3 K).z = 0 := rfl
@[simp] theorem smul_x [Mul K] (c : K) (a : V3 K) : (c • a).x = a.x * c := rfl
@[simp] theorem smul_y [Mul K] (c : K) (a : V3 K) : (c • a).y = a.y * c := rfl
@[simp] theorem smul_z [Mul K] (c : K) (a : V3 K) : (c • a).z = a.z * c := rfl
@[simp] theorem div_x [Div K] (a : V3 K) (c : K) : (a / c).x = a.x / c := rfl
@[simp] theorem div_y [Div K] (a : V3 K) (c : K) : (a / c).y = a.y / c := rfl
@[simp] theorem div_z [Div K] (a : V3 K) (c : K) : (a / c).z = a.z / c := rfl
end lemmas

instance [AddCommGroup K] : AddCommGroup (V3 K) where
  add_assoc a b c := by ext <;> simp [add_assoc]
  zero_add a := by ext <;> simp
  add_zero a := by ext <;> simp
  add_comm a b := by ext <;> simp [add_comm]
  neg_add_cancel a := by ext <;> simp
  sub_eq_add_neg a b := by ext <;> simp [sub_eq_add_neg]
  nsmul := nsmulRec
  zsmul := zsmulRec

instance [CommRing K] : Module K (V3 K) where
  one_smul a := by ext <;> simp
  mul_smul c d a := by ext <;> simp <;> ring
  smul_zero c := by ext <;> simp
  smul_add c a b := by ext <;> simp <;> ring
  add_smul c d a := by ext <;> simp <;> ring
  zero_smul a := by ext <;> simp

end V3
end SpaceHub
