import Verif.Model.RigidBody

/-!
# Model of `is_same`

`Ellipsoid.is_same` compares `Q` matrices that may contain `inf` and `nan`, so it needs arithmetic on
`Flt K`: numbers of `K` (exact arithmetic) together with the two infinities and `nan`.
-/

namespace Rigeo

open Matrix

/-- Extended numbers as in IEEE arithmetic, but without rounding, overflow or signed zeros. -/
inductive Flt (K : Type)
  | fin (x : K)
  | pinf
  | ninf
  | nan

namespace Flt
variable {K : Type} [Field K] [LinearOrder K]

def add : Flt K → Flt K → Flt K
  | nan, _ => nan
  | _, nan => nan
  | fin x, fin y => fin (x + y)
  | pinf, ninf => nan
  | ninf, pinf => nan
  | pinf, _ => pinf
  | _, pinf => pinf
  | ninf, _ => ninf
  | _, ninf => ninf

def neg : Flt K → Flt K
  | nan => nan
  | fin x => fin (-x)
  | pinf => ninf
  | ninf => pinf

/-- `inf * y` -/
def infMul : Flt K → Flt K
  | nan => nan
  | pinf => pinf
  | ninf => ninf
  | fin y => if y = 0 then nan else if 0 < y then pinf else ninf

def mul : Flt K → Flt K → Flt K
  | nan, _ => nan
  | _, nan => nan
  | fin x, fin y => fin (x * y)
  | pinf, y => infMul y
  | ninf, y => neg (infMul y)
  | x, pinf => infMul x
  | x, ninf => neg (infMul x)

/-- `np.isclose(a, b, rtol, atol)`: equal infinities are close, `nan` is close to nothing. -/
def isclose (a b : Flt K) (rtol atol : K) : Bool :=
  match a, b with
  | fin x, fin y => Rigeo.isclose x y rtol atol
  | pinf, pinf => true
  | ninf, ninf => true
  | _, _ => false

/-- The sum of finitely many numbers, from left to right. -/
def sum (l : List (Flt K)) : Flt K := l.foldl add (fin 0)

/-- `u @ v` -/
def dot {n : ℕ} (u v : Fin n → Flt K) : Flt K := sum ((List.finRange n).map fun k => mul (u k) (v k))

/-- `A @ B` for matrices -/
def matmul {l m n : ℕ} (A : Fin l → Fin m → Flt K) (B : Fin m → Fin n → Flt K) (i : Fin l) (j : Fin n) :
    Flt K := dot (A i) fun k => B k j

end Flt

section Field
variable {K : Type} [Field K] [LinearOrder K]

/-- `half_extents_inv` (src/rigeo/shape/ellipsoid.py:72) with its infinite entries -/
def Ellipsoid.hInvFlt {d : ℕ} (e : Ellipsoid K d) (i : Fin d) : Flt K :=
  match e.hInv i with
  | none => .pinf
  | some x => .fin x

/-- src/rigeo/shape/ellipsoid.py:90-97 `S`, in extended arithmetic -/
def Ellipsoid.SFlt {d : ℕ} (e : Ellipsoid K d) : Fin d → Fin d → Flt K :=
  let D : Fin d → Fin d → Flt K := fun i j => if i = j then Flt.mul (e.hInvFlt i) (e.hInvFlt i) else .fin 0
  let R : Fin d → Fin d → Flt K := fun i j => .fin (e.rotation i j)
  Flt.matmul (Flt.matmul R D) fun i j => R j i

/-- src/rigeo/shape/ellipsoid.py:188-195 `Q` (with `_Q_matrix`, lines 28-53), in extended arithmetic -/
def Ellipsoid.QFlt {d : ℕ} (e : Ellipsoid K d) : Fin (d + 1) → Fin (d + 1) → Flt K :=
  let S := e.SFlt
  let c : Fin d → Flt K := fun i => .fin (e.center i)
  let Sc : Fin d → Flt K := fun i => Flt.dot (S i) c
  let cS : Fin d → Flt K := fun j => Flt.dot c fun i => S i j
  Fin.snoc (α := fun _ => Fin (d + 1) → Flt K)
    (fun i => Fin.snoc (α := fun _ => Flt K) (fun j => Flt.neg (S i j)) (Sc i))
    (Fin.snoc (α := fun _ => Flt K) Sc (Flt.add (.fin 1) (Flt.neg (Flt.dot cS c))))

/-- src/rigeo/shape/ellipsoid.py:244-248 `is_same` for two ellipsoids of the same dimension.
`np.allclose` is called with its default `rtol = 1e-5`. -/
def Ellipsoid.isSame {d : ℕ} (e e' : Ellipsoid K d) (tol : K := tol8) : Bool :=
  decide (∀ i j, Flt.isclose (e.QFlt i j) (e'.QFlt i j) rtol5 tol = true)

/-- The call `cylinder.is_same(other, tol=tol)` (src/rigeo/shape/cylinder.py:112): the method has no
parameter `tol`, so giving one raises `TypeError`. -/
def Cylinder.isSameCall (c c' : Cylinder K) : Option K → Py Bool
  | some _ => .error .type
  | none => .ok (c.isSame c')

/-- `is_same` of the classes of the package (src/rigeo/shape/poly.py:172-177, ellipsoid.py:244-248,
cylinder.py:112-120, capsule.py:48-51). `tol = none` means that the keyword is not given. `isinstance`
fails between different classes, except that a `Box` is a `ConvexPolyhedron`. -/
def AnyShape.isSame (s s' : AnyShape K) (tol : Option K := none) : Py Bool :=
  match s, s' with
  | .ellipsoid e, .ellipsoid e' => .ok (e.isSame e' (tol.getD tol8))
  | .box b, .box b' => .ok (b.toPoly.isSame b'.toPoly (tol.getD tol8))
  | .poly P, .poly P' => .ok (P.isSame P' (tol.getD tol8))
  | .poly P, .box b' => .ok (P.isSame b'.toPoly (tol.getD tol8))
  | .cylinder c, .cylinder c' => c.isSameCall c' tol
  | .cylinder _, _ => if tol.isSome then .error .type else .ok false
  | .capsule c, .capsule c' => c.cylinder.isSameCall c'.cylinder (some (tol.getD tol8))
  | _, _ => .ok false

end Field
end Rigeo
