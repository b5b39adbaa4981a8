import Verif.Cases.Identify
import Verif.Props.Memory

/-!
# Concrete cases: objects and references

Cases for the theorems of Props/Memory.
-/

namespace Rigeo.Case

open Matrix

/-! A memory with the dictionaries of `1 - x - 2 y` and of `3 x`. -/

def line : Polynomial ℚ 2 := .affine ![1, 2] 1

def triple : Polynomial ℚ 2 := .init [(![1, 0], 3)]

def dicts : List (PolyRef.Dicts ℚ 2) := [line.coefficients, triple.coefficients]

example := C108_add dicts 0 1 line triple rfl rfl (C21_affine ![1, 2] 1 0).1

example := C108_add dicts 0 0 line line rfl rfl (C21_affine ![1, 2] 1 0).1

example := C108_localize dicts 0 line rfl ![1, 0]

example := C108_polynomial dicts 1 triple.coefficients rfl (1 / 2)

/-- The indices of the moment matrix of order two in two variables. -/
def indexArray : ℕ × ℕ → Cell ℚ 2 := fun ij => .index (MomentMatrix.indices 2 2 ij.1 ij.2)

example := C108_localizing [indexArray] 0 3 indexArray rfl (fun ij => MomentMatrix.indices 2 2 ij.1 ij.2) (fun _ _ _ _ => rfl) line

/-! Two bodies, of which the second has the list with the box and the ellipsoid. -/

def lists : List (List (AnyShape ℚ)) := [[.cylinder cylinder], [.box box, .ellipsoid ellipsoid]]

example := C108_body_add lists ⟨0, ip⟩ ⟨1, ip⟩ ⟨[.cylinder cylinder], ip⟩ ⟨[.box box, .ellipsoid ellipsoid], ip⟩ rfl rfl

example := C108_body_sum lists ⟨0, ip⟩ ⟨1, ip⟩ ⟨[.cylinder cylinder], ip⟩ ⟨[.box box, .ellipsoid ellipsoid], ip⟩ rfl rfl

example := C108_body_transform cdd lists ⟨1, ip⟩ ⟨[.box box, .ellipsoid ellipsoid], ip⟩ rfl (some R) none

example := (C108_body_shared lists ip).1 1 _ (.capsule capsule) rfl

/-! A model with two geometries on one joint, and a second model whose geometry is rejected. -/

def inertias : List (PinInertia ℚ) := [⟨0, 0, 0⟩, ⟨2, t, 1⟩]

def arm : PinModel ℚ := ⟨["universe", "joint"], ["tool"], inertias, [⟨.box ext, R, t, 1⟩, ⟨.sphere 2, 1, 0, 1⟩], ![0, 0, -10]⟩

def broken : PinModel ℚ := ⟨["universe", "joint"], ["tool"], inertias, [⟨.convex, R, t, 1⟩], ![0, 0, -10]⟩

example := C108_multibody cdd inertias arm.geoms lists

theorem arm_bodies : ∃ bodies, geomBodies cdd arm.inertias arm.geoms = .ok bodies :=
  (C82_bodies cdd inertias arm.geoms (by simp [inertias]) (by
    simp only [arm, List.mem_cons, List.not_mem_nil, or_false]
    rintro g (rfl | rfl)
    · exact ⟨ext_nonneg, R_orth, by simp [inertias]⟩
    · exact ⟨by norm_num [Spec.GeomOk], Spec.Orthogonal.one, by simp [inertias]⟩)).imp fun _ h => h.1

example : ∃ ref m', Prog.exec (MultiBodyRef.init cdd 0 (some "tool") (some [0, 0, -2])) [arm, broken] = (.ok ref, m') ∧
    ∀ old : MultiBodyRef ℚ, ∀ v, old.view [arm, broken] = some v → old.model = 0 →
      old.view m' = some { v with model := { v.model with gravity := ![0, 0, -2] } } := by
  obtain ⟨bodies, hb⟩ := arm_bodies
  obtain ⟨mb, h, -⟩ := (C82_init cdd arm (some "tool") (some [0, 0, -2])).1 bodies hb (by simp [arm]) (by simp)
  obtain ⟨ref, m', h1, -, -, h2⟩ := C108_gravity cdd [arm, broken] 0 arm rfl (some "tool") 0 0 (-2) mb h
  exact ⟨ref, m', h1, fun old v hv ho => (h2 old v hv).1 ho⟩

example := C108_gravity_failed cdd [arm, broken] 1 broken rfl (some "tool") (by simp [broken]) 0 0 (-2) .notImplemented (by
  simp [broken, geomBodies, inertias, addGeom, listGet, pinToShape, hppfclToShape]
  rfl)

example := C108_gravity_none cdd [arm, broken] 1 broken rfl (some "tool") (some [1]) (by simp)

/-! Arrays. -/

def arrays : List (Array3 ℚ) := [.vec ext, .vec t, .mat R, .mat 1]

example := C108_box arrays 0 (some 1) (some 2) ext rfl (by simp [arrays]) (by simp [arrays])

example := C108_params arrays 3 none (some 1) none (some 3) true (by simp) (by simp [arrays]) (by simp) (by simp [arrays])

example := C108_params_shared arrays 3 (by norm_num) 1 3 t ext 1 rfl rfl

end Rigeo.Case
