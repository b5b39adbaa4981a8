import Verif.Model.FloatDensity

/-!
# Bounding ellipsoids and inscribed boxes with rounding

`fl` is the rounding of the result of one operation. Rotation and center are copied.
-/

namespace Rigeo

section
variable (fl : ℝ → ℝ)

/-- src/rigeo/shape/box.py:332-343 `mbe(sphere=False)` -/
noncomputable def Box.mbeFloat (b : Box ℝ) : Ellipsoid ℝ 3 := ⟨fun i => fl (b.halfExtents i * fl (Real.sqrt 3)), b.rotation, b.center⟩

/-- src/rigeo/shape/ellipsoid.py:434-442 `mib` -/
noncomputable def Ellipsoid.mibFloat (e : Ellipsoid ℝ 3) : Box ℝ :=
  ⟨fun i => fl (e.halfExtents i / fl (Real.sqrt 3)), e.rotation, e.center⟩

/-- src/rigeo/shape/cylinder.py:242-249 `mib` -/
noncomputable def Cylinder.mibFloat (c : Cylinder ℝ) : Box ℝ :=
  let r := fl (c.radius / fl (Real.sqrt 2))
  ⟨![r, r, fl (c.length / 2)], c.rotation, c.center⟩

end

end Rigeo
