import Verif.Props.Same
import Verif.Props.Polydd
import Verif.Props.MultiBody

/-!
# Further consequences that tell apart more variants of the code
-/

namespace Rigeo

open Matrix

section Field
variable {K : Type} [Field K] [LinearOrder K] [IsStrictOrderedRing K]

/-! ## C64: boxes as polyhedra -/

/-- C64: `Box.as_poly` is a polyhedron with the points of the box, whose corners are its vertices. -/
theorem C64_as_poly (cdd : CddLib K) (hcdd : Spec.IsCdd cdd) (b : Box K) (hb : ∀ i, 0 ≤ b.halfExtents i) :
    ∃ P, b.asPoly cdd = .ok P ∧ P.Consistent ∧
      ∀ p, P.contains p 0 = true ↔ p ∈ Spec.box b.halfExtents b.rotation b.center := by
  obtain ⟨P, h1, -, h2, h3⟩ := C64_from_vertices cdd hcdd b.vertices (by intro h; have := congrArg List.length h; simp [Box.vertices, Box.toPoly, Box.boxVerts, boxVertices, signCombos] at this)
  refine ⟨P, h1, h2, fun p => ?_⟩
  rw [h3, C25_vertices b hb]

/-! ## C81: counts -/

omit [LinearOrder K] [IsStrictOrderedRing K] in
/-- C81: `FaceForm.nf` is the number of rows that are given to cdd, none of which is marked as an equation: an equation
counts twice. -/
theorem C81_face_rows {d : ℕ} (ineq eq : List ((Fin d → K) × K)) :
    (FaceForm.init ineq (some eq)).nf = ineq.length + 2 * eq.length ∧ (FaceForm.init ineq).nf = ineq.length ∧
    (∀ f : FaceForm K d, f.toCdd.rows.length = f.nf ∧ f.toCdd.lin = []) ∧
    ∀ f g : FaceForm K d, (f.stack g).nf = f.nf + g.nf := by
  refine ⟨?_, rfl, fun f => ⟨by simp [FaceForm.toCdd, FaceForm.nf], rfl⟩, fun f g => ?_⟩
  · simp [FaceForm.init, FaceForm.nf]; omega
  · simp [FaceForm.stack, FaceForm.init, FaceForm.nf]

omit [LinearOrder K] [IsStrictOrderedRing K] in
theorem List.idxOf_le_of_getElem? {α : Type} [DecidableEq α] {l : List α} {a : α} {i : ℕ} (h : l[i]? = some a) :
    l.idxOf a ≤ i := by
  obtain ⟨hi, rfl⟩ := List.getElem?_eq_some_iff.mp h
  by_contra hlt
  push Not at hlt
  simpa using List.not_of_lt_findIdx hlt

/-! ## C82: names, indices and unknown joints -/

omit [IsStrictOrderedRing K] in
/-- C82: a frame is resolved to the tool if none is given, an index to itself, and a name to the position of that
name. -/
theorem C82_resolve_frame (mb : MultiBody K) :
    mb.resolveFrameIndex none = .ok mb.toolIdx ∧ (∀ i, mb.resolveFrameIndex (some (.inl i)) = .ok (some i)) ∧
    (∀ name i, mb.resolveFrameIndex (some (.inr name)) = .ok (some i) ↔
      mb.model.frameNames[i]? = some name ∧ ∀ j < i, mb.model.frameNames[j]? ≠ some name) ∧
    ∀ name, name ∉ mb.model.frameNames → mb.resolveFrameIndex (some (.inr name)) = .error .value := by
  refine ⟨rfl, fun i => rfl, fun name i => ?_, fun name h => ?_⟩
  · unfold MultiBody.resolveFrameIndex MultiBody.nameIndex
    by_cases h : name ∈ mb.model.frameNames
    · simp only [if_pos h, Except.map, Except.ok.injEq, Option.some.injEq]
      constructor
      · rintro rfl
        refine ⟨List.getElem?_idxOf h, fun j hj hn => ?_⟩
        have := List.idxOf_le_of_getElem? hn
        omega
      · rintro ⟨h1, h2⟩
        have h3 := List.idxOf_le_of_getElem? h1
        rcases h3.lt_or_eq with h4 | h4
        · exact absurd (List.getElem?_idxOf h) (h2 _ h4)
        · exact h4
    · simp only [if_neg h, Except.map, reduceCtorEq, false_iff, not_and]
      intro h1
      exact absurd (List.mem_of_getElem? h1) h
  · simp only [MultiBody.resolveFrameIndex, MultiBody.nameIndex, if_neg h]
    rfl

omit [IsStrictOrderedRing K] in
/-- C82: a geometry whose joint has no inertia raises `IndexError`, whatever its shape. -/
theorem C82_unknown_joint (cdd : CddLib K) (inertias : List (PinInertia K)) (geoms rest : List (GeomObj K))
    (bodies : List (ℕ × RigidBody K)) (h : geomBodies cdd inertias geoms = .ok bodies) (g : GeomObj K)
    (hg : inertias.length ≤ g.parentJoint) : geomBodies cdd inertias (geoms ++ g :: rest) = .error .index := by
  unfold geomBodies at h ⊢
  rw [List.foldlM_append, h]
  show (List.foldlM (addGeom cdd inertias) bodies (g :: rest) : Py _) = _
  rw [List.foldlM_cons]
  have : addGeom cdd inertias bodies g = .error .index := by
    unfold addGeom listGet
    rw [List.getElem?_eq_none hg]
    rfl
  rw [this]
  rfl

example (cdd : CddLib ℚ) : geomBodies cdd [] [⟨.sphere 1, 0, 1, 0⟩] = .error .index :=
  C82_unknown_joint cdd [] [] [] [] rfl _ (by simp)

/-! ## C45: cancelling infinities -/

/-- C45: a segment in the plane, in general position, is the same as itself exactly if both coordinates of its center have
the same sign: otherwise `Q` contains the difference of two infinities. -/
theorem C45_degenerate_self (a b s c₀ c₁ tol : K) (ha : 0 < a) (hb : 0 < b) (hs : 1 / 100000000 < s) :
    (⟨![0, s], !![a, -b; b, a], ![c₀, c₁]⟩ : Ellipsoid K 2).isSame ⟨![0, s], !![a, -b; b, a], ![c₀, c₁]⟩ tol = true ↔
      0 < c₀ * c₁ := by
  have h0 : (⟨![0, s], !![a, -b; b, a], ![c₀, c₁]⟩ : Ellipsoid K 2).hInvFlt 0 = .pinf := by
    unfold Ellipsoid.hInvFlt Ellipsoid.hInv Ellipsoid.invWithZero
    have : isclose ((![0, s] : Fin 2 → K) 0) 0 0 tol8 = true := by
      unfold isclose
      have : (0 : K) < tol8 := tol8_pos
      simp [this.le]
    dsimp only
    rw [if_pos this]
  have h1 : (⟨![0, s], !![a, -b; b, a], ![c₀, c₁]⟩ : Ellipsoid K 2).hInvFlt 1 = .fin (1 / s) := by
    unfold Ellipsoid.hInvFlt Ellipsoid.hInv Ellipsoid.invWithZero
    have : ¬ isclose ((![0, s] : Fin 2 → K) 1) 0 0 tol8 = true := by
      unfold isclose tol8
      have : (0 : K) < s := lt_trans (by norm_num) hs
      simp [abs_of_pos this]
      simpa using hs
    dsimp only
    rw [if_neg this]
    rfl
  have hS : (⟨![0, s], !![a, -b; b, a], ![c₀, c₁]⟩ : Ellipsoid K 2).SFlt = fun _ _ => .pinf := by
    funext i j
    unfold Ellipsoid.SFlt
    fin_cases i <;> fin_cases j <;>
      simp [Flt.matmul, Flt.dot, Flt.sum, h0, h1, Flt.mul, Flt.infMul, Flt.add, List.finRange, ha, ha.ne', hb, hb.ne']
  unfold Ellipsoid.isSame Ellipsoid.QFlt
  rw [hS]
  rw [decide_eq_true_iff]
  constructor
  · intro h
    have h2 : Flt.isclose ((Flt.add (.fin 0) (Flt.infMul (.fin c₀))).add (Flt.infMul (.fin c₁)))
        ((Flt.add (.fin 0) (Flt.infMul (.fin c₀))).add (Flt.infMul (.fin c₁))) rtol5 tol = true := h 0 2
    clear h h0 h1 hS
    rcases lt_trichotomy c₀ 0 with hc | hc | hc <;> rcases lt_trichotomy c₁ 0 with hd | hd | hd
    · exact mul_pos_of_neg_of_neg hc hd
    · simp [Flt.mul, Flt.infMul, Flt.add, Flt.isclose, hc, hd, hc.not_gt, hc.ne] at h2
    · simp [Flt.mul, Flt.infMul, Flt.add, Flt.isclose, hc, hd, hc.not_gt, hc.ne, hd.ne'] at h2
    · simp [Flt.mul, Flt.infMul, Flt.add, Flt.isclose, hc, hd, hd.not_gt, hd.ne] at h2
    · simp [Flt.mul, Flt.infMul, Flt.add, Flt.isclose, hc, hd] at h2
    · simp [Flt.mul, Flt.infMul, Flt.add, Flt.isclose, hc, hd, hd.ne'] at h2
    · simp [Flt.mul, Flt.infMul, Flt.add, Flt.isclose, hc, hd, hd.not_gt, hc.ne', hd.ne] at h2
    · simp [Flt.mul, Flt.infMul, Flt.add, Flt.isclose, hc, hd, hc.ne'] at h2
    · exact mul_pos hc hd
  · intro h i j
    rcases lt_trichotomy c₀ 0 with hc | hc | hc
    · have hd : c₁ < 0 := by by_contra hd; push Not at hd; exact absurd h (mul_nonpos_of_nonpos_of_nonneg hc.le hd).not_gt
      fin_cases i <;> fin_cases j <;>
      simp [Fin.snoc, Flt.dot, Flt.sum, List.finRange, Flt.mul, Flt.infMul, Flt.add, Flt.neg, Flt.isclose, hc, hd,
        hc.not_gt, hd.not_gt, hc.ne, hd.ne]
    · simp [hc] at h
    · have hd : 0 < c₁ := by by_contra hd; push Not at hd; exact absurd h (mul_nonpos_of_nonneg_of_nonpos hc.le hd).not_gt
      fin_cases i <;> fin_cases j <;>
      simp [Fin.snoc, Flt.dot, Flt.sum, List.finRange, Flt.mul, Flt.infMul, Flt.add, Flt.neg, Flt.isclose, hc, hd,
        hc.ne', hd.ne']

end Field
end Rigeo
