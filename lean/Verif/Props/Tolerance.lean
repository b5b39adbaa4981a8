import Verif.Props.Polydd
import Verif.Props.Shapes3

/-!
# C33 with a positive tolerance

Boxes, ellipsoids and cylinders are equivariant at every tolerance (`C33_box`, `C33_ellipsoid`, `C33_cylinder`).
For polyhedra and for capsules of radius at most `1e-8` the claim fails at positive tolerances:

* `ConvexPolyhedron.transform` rebuilds the face form with cdd, and the tolerance of `contains` is absolute in the
  scale of the rows of that face form. Which outside points are accepted depends on how cdd scales its rows.
* `Capsule.transform` rebuilds the end spheres with the identity as rotation, and an ellipsoid with a zero half
  extent compares coordinates one by one.
-/

namespace Rigeo

open Matrix

section Field
variable {K : Type} [Field K] [LinearOrder K] [IsStrictOrderedRing K] {d : ℕ}

/-- Rows multiplied by `c`. -/
def scaleRows (c : K) (m : CddMat K d) : CddMat K d := ⟨m.rows.map fun r => (c * r.1, c • r.2), m.lin⟩

theorem plainRows_scaleRows (c : K) (m : CddMat K d) :
    Spec.plainRows (scaleRows c m) = (Spec.plainRows m).map fun r => (c * r.1, c • r.2) := by
  simp only [Spec.plainRows, scaleRows, List.zipIdx_map, List.filter_map, List.map_map]
  rfl

theorem linRows_scaleRows (c : K) (m : CddMat K d) :
    Spec.linRows (scaleRows c m) = (Spec.linRows m).map fun r => (c * r.1, c • r.2) := by
  simp only [Spec.linRows, scaleRows, List.zipIdx_map, List.filter_map, List.map_map]
  rfl

theorem ineqSet_scaleRows (c : K) (hc : 0 < c) (m : CddMat K d) :
    Spec.ineqSet (scaleRows c m) = Spec.ineqSet m := by
  ext x
  simp only [Spec.ineqSet, plainRows_scaleRows, linRows_scaleRows, Set.mem_ofPred_eq, List.forall_mem_map]
  have e : ∀ r : K × (Fin d → K), c * r.1 + (c • r.2) ⬝ᵥ x = c * (r.1 + r.2 ⬝ᵥ x) := fun r => by
    rw [smul_dotProduct, smul_eq_mul, mul_add]
  simp only [e, mul_nonneg_iff_of_pos_left hc, mul_eq_zero, hc.ne', false_or]

/-- A library that scales all computed inequalities is as good as the original one. -/
def scaleCdd (c : K) (cdd : CddLib K) : CddLib K := { cdd with inequalities := fun m => scaleRows c (cdd.inequalities m) }

theorem scaleCdd_isCdd (c : K) (hc : 0 < c) (cdd : CddLib K) (h : Spec.IsCdd cdd) : Spec.IsCdd (scaleCdd c cdd) where
  inequalities := fun m hm hr => by
    obtain ⟨h1, h2, h3⟩ := h.inequalities m hm hr
    refine ⟨?_, ?_, ?_⟩
    · intro k hk
      simpa [scaleCdd, scaleRows] using h1 k hk
    · show Spec.plainRows (scaleRows c (cdd.inequalities m)) ≠ []
      rw [plainRows_scaleRows]
      simpa using h2
    · exact (ineqSet_scaleRows c hc _).trans h3
  generators := fun m => h.generators m
  canonicalizeGen := fun m => h.canonicalizeGen m
  canonicalizePoints := fun V => h.canonicalizePoints V
  canonicalizeIneq := fun m => h.canonicalizeIneq m

theorem fromCdd_scaleRows (c : K) (m : CddMat K d) (f : FaceForm K d) (h : FaceForm.fromCdd m = .ok f) :
    FaceForm.fromCdd (scaleRows c m) = .ok ⟨f.faces.map fun ab => (c • ab.1, c * ab.2)⟩ := by
  have e : ∀ q : ℕ → Bool, (((scaleRows c m).rows.zipIdx.filter fun rk => q rk.2).map fun rk =>
      ((-rk.1.2 : Fin d → K), rk.1.1)) = ((m.rows.zipIdx.filter fun rk => q rk.2).map fun rk =>
        ((-rk.1.2 : Fin d → K), rk.1.1)).map fun ab => (c • ab.1, c * ab.2) := by
    intro q
    simp only [scaleRows, List.zipIdx_map, List.filter_map, List.map_map]
    refine List.map_congr_left fun rk _ => ?_
    simp
  unfold FaceForm.fromCdd at h ⊢
  have hl : (scaleRows c m).rows.length = m.rows.length := by simp [scaleRows]
  have hm : (scaleRows c m).lin = m.lin := rfl
  simp only [hl, hm, e (fun k => !decide (k ∈ m.lin)), e (fun k => decide (k ∈ m.lin)), List.isEmpty_map] at h ⊢
  by_cases h1 : m.rows.length = 0
  · rw [if_pos h1] at h; cases h
  rw [if_neg h1] at h ⊢
  by_cases h2 : (!(m.lin.all fun k => decide (k < m.rows.length))) = true
  · rw [if_pos h2] at h; cases h
  rw [if_neg h2] at h ⊢
  split at h
  · cases h
  · rename_i h3
    rw [if_neg h3]
    simp only [pure, Except.pure, Except.ok.injEq] at h ⊢
    rw [← h]
    split_ifs with h4
    · rfl
    · simp [FaceForm.init, List.map_map, Function.comp_def]

/-- C33 (polyhedra, positive tolerance). A moved point is sure to be accepted by the moved polyhedron only if it is
in the polyhedron, however large the tolerance: for every outside point there is a correct double description
library whose scaling of the face rows makes the moved polyhedron reject it. -/
theorem C33_poly_tol (P : Poly K d) (hP : P.Consistent) (R : Matrix (Fin d) (Fin d) K) (hR : Spec.Orthogonal R)
    (t : Fin d → K) (tol : K) (htol : 0 ≤ tol) (p : Fin d → K) :
    (∀ cdd : CddLib K, Spec.IsCdd cdd → ∃ P', P.transform cdd (some R) (some t) = .ok P' ∧
      P'.contains (Spec.rigid R t p) tol = true) ↔ p ∈ Spec.hull P.vertices := by
  have hmono : ∀ (Q : Poly K d) (q : Fin d → K), Q.contains q 0 = true → Q.contains q tol = true := by
    intro Q q h
    simp only [Poly.contains, List.all_eq_true, decide_eq_true_eq] at h ⊢
    intro f hf
    linarith [h f hf]
  constructor
  · intro h
    by_contra hp
    obtain ⟨cdd, hcdd⟩ := exists_cdd (K := K)
    obtain ⟨P', h1, -, -, h4⟩ := C33_poly_partial cdd hcdd P hP R hR t
    have hout : P'.contains (Spec.rigid R t p) 0 ≠ true := by
      rw [h4]; exact fun hc => hp ((hP.contains_iff p).mp hc)
    simp only [Poly.contains, ne_eq, List.all_eq_true, decide_eq_true_eq, not_forall, add_zero, not_le] at hout
    obtain ⟨f, hf, hlt⟩ := hout
    -- scale the rows until the violation exceeds the tolerance
    obtain ⟨c, hc, hc'⟩ : ∃ c : K, 0 < c ∧ tol < c * (f.1 ⬝ᵥ Spec.rigid R t p - f.2) := by
      have hpos : 0 < f.1 ⬝ᵥ Spec.rigid R t p - f.2 := sub_pos.mpr hlt
      refine ⟨(tol + 1) / (f.1 ⬝ᵥ Spec.rigid R t p - f.2), by positivity, ?_⟩
      rw [div_mul_cancel₀ _ hpos.ne']
      linarith
    obtain ⟨P'', h5, h6⟩ := h _ (scaleCdd_isCdd c hc cdd hcdd)
    have hfaces : P''.faceForm.faces = P'.faceForm.faces.map fun ab => (c • ab.1, c * ab.2) := by
      simp only [Poly.transform, Option.getD_some] at h1 h5
      generalize P.vertices.map (fun v => v ᵥ* Rᵀ + t) = vs at h1 h5
      simp only [Poly.fromVertices, Poly.init, SpanForm.toFaceForm, bind, Except.bind, pure, Except.pure, Bool.false_eq_true,
        if_false] at h1 h5
      cases hm : (SpanForm.init (some vs) : SpanForm K d).toCdd with
      | error e => rw [hm] at h1; simp at h1
      | ok m =>
        rw [hm] at h1 h5
        dsimp only at h1 h5
        cases hf' : FaceForm.fromCdd (cdd.inequalities m) with
        | error e => rw [hf'] at h1; simp at h1
        | ok ff =>
          have hs := fromCdd_scaleRows c _ ff hf'
          rw [hf'] at h1
          have e5 : (scaleCdd c cdd).inequalities m = scaleRows c (cdd.inequalities m) := rfl
          rw [e5, hs] at h5
          dsimp only at h1 h5
          split at h1
          · simp only [Except.ok.injEq] at h1 h5
            split at h5
            · simp only [Except.ok.injEq] at h5
              rw [← h1, ← h5]
            · contradiction
          · cases h1
    simp only [Poly.contains, hfaces, List.all_eq_true, decide_eq_true_eq, List.forall_mem_map] at h6
    have := h6 f hf
    rw [smul_dotProduct, smul_eq_mul] at this
    rw [mul_sub] at hc'
    linarith
  · intro hp cdd hcdd
    obtain ⟨P', h1, -, -, h4⟩ := C33_poly_partial cdd hcdd P hP R hR t
    refine ⟨P', h1, hmono _ _ ?_⟩
    rw [h4, hP.contains_iff]
    exact hp

end Field

/-- The unit interval, a point within the tolerance of it, and a quarter turn in the plane meet the hypotheses; the
point is accepted by the original polyhedron but is not sure to be accepted after moving. -/
example : ∃ (P : Poly ℚ 2) (p : Fin 2 → ℚ), P.Consistent ∧
    Spec.Orthogonal (!![0, -1; 1, 0] : Matrix (Fin 2) (Fin 2) ℚ) ∧ P.contains p = true ∧
    ¬ ∀ cdd : CddLib ℚ, Spec.IsCdd cdd → ∃ P', P.transform cdd (some !![0, -1; 1, 0]) (some ![1, 2]) = .ok P' ∧
      P'.contains (Spec.rigid !![0, -1; 1, 0] ![1, 2] p) (1 / 100000000) = true := by
  have hP : (⟨[![0, 0], ![1, 0]], ⟨[(![1, 0], 1), (![-1, 0], 0), (![0, 1], 0), (![0, -1], 0)]⟩⟩ : Poly ℚ 2).Consistent := by
    refine ⟨by simp, by simp, ?_⟩
    have e : {v : Fin 2 → ℚ | v ∈ [![0, 0], ![1, 0]]} = {![0, 0], ![1, 0]} := by ext v; simp
    ext x
    rw [Spec.hull, e, convexHull_pair]
    simp only [segment, Spec.halfspaces, Set.mem_ofPred_eq]
    constructor
    · rintro ⟨a, b, ha, hb, hs, rfl⟩ f hf
      simp only [List.mem_cons, List.not_mem_nil, or_false] at hf
      rcases hf with rfl | rfl | rfl | rfl <;> simp [vec2_dotProduct] <;> linarith
    · intro h
      have h1 := h (![1, 0], 1) (by simp)
      have h2 := h (![-1, 0], 0) (by simp)
      have h3 := h (![0, 1], 0) (by simp)
      have h4 := h (![0, -1], 0) (by simp)
      simp only [dotProduct, Fin.sum_univ_two, Matrix.cons_val_zero, Matrix.cons_val_one] at h1 h2 h3 h4
      refine ⟨1 - x 0, x 0, by linarith, by linarith, by ring, ?_⟩
      ext i
      fin_cases i
      · simp
      · simp; linarith
  refine ⟨_, ![1 + 1 / 1000000000, 0], hP, by decide +kernel, by decide +kernel, ?_⟩
  rw [C33_poly_tol _ hP _ (by decide +kernel) _ _ (by norm_num), hP.2.2]
  intro h
  have := h (![1, 0], 1) (by simp)
  norm_num [vec2_dotProduct] at this

section Thin
variable {K : Type} [Field K] [LinearOrder K] [IsStrictOrderedRing K]

theorem Capsule.contains_tiny (L r : K) (hr0 : 0 ≤ r) (hr : r ≤ 1 / 100000000) (Q : Matrix (Fin 3) (Fin 3) K)
    (c p : Fin 3 → K) (tol : K) : (⟨⟨L, r, Q, c⟩⟩ : Capsule K).contains p tol = .ok true ↔
      ((∀ i, |p i - Spec.rigid Q c ![0, 0, L / 2] i| ≤ tol) ∧ 0 ≤ 1 + tol) ∨
      ((∀ i, |p i - Spec.rigid Q c ![0, 0, -(L / 2)] i| ≤ tol) ∧ 0 ≤ 1 + tol) ∨
      (⟨L, r, Q, c⟩ : Cylinder K).contains p tol = true := by
  rw [Capsule.contains_eq _ (by exact hr0)]
  dsimp only
  rw [← Rigeo.contains_tiny r hr0 hr, ← Rigeo.contains_tiny r hr0 hr]
  constructor
  · intro h
    have := Except.ok.inj h
    simpa only [Bool.or_eq_true, or_assoc] using this
  · intro h
    congr 1
    simpa only [Bool.or_eq_true, or_assoc] using h

/-- C33 (thin capsules, positive tolerance): the claim fails for every capsule with a radius of at most `1e-8` and
every tolerance from the default `1e-8` on: some rigid motion and some point violate it. -/
theorem C33_capsule_tol (c : Capsule K) (hQ : Spec.Orthogonal c.cylinder.rotation) (hL : 0 ≤ c.cylinder.length)
    (hr : 0 ≤ c.cylinder.radius) (hr' : c.cylinder.radius ≤ 1 / 100000000) (tol : K) (htol : 1 / 100000000 ≤ tol) :
    ∃ (R : Matrix (Fin 3) (Fin 3) K) (t p : Fin 3 → K) (c' : Capsule K), Spec.Orthogonal R ∧
      c.transform (some R) (some t) = .ok c' ∧ c'.contains (Spec.rigid R t p) tol ≠ c.contains p tol := by
  obtain ⟨⟨L, r, Q, x⟩⟩ := c
  dsimp only at hQ hL hr hr'
  by_contra hne
  push Not at hne
  have htr : ∀ R t, (⟨⟨L, r, Q, x⟩⟩ : Capsule K).transform (some R) (some t) = .ok ⟨⟨L, r, R * Q, R *ᵥ x + t⟩⟩ := by
    intro R t
    simp [Capsule.transform, Cylinder.transform, Cylinder.init_ok _ _ hL hr, bind, Except.bind, pure, Except.pure]
  set R : Matrix (Fin 3) (Fin 3) K := !![3 / 5, -4 / 5, 0; 4 / 5, 3 / 5, 0; 0, 0, 1] with hRdef
  have hR : Spec.Orthogonal R := by
    unfold Spec.Orthogonal
    ext i j
    fin_cases i <;> fin_cases j <;> simp [hRdef, Matrix.mul_apply, Fin.sum_univ_three] <;> norm_num
  have hQ' : Q * Qᵀ = 1 := mul_eq_one_comm.mp hQ
  have hRQ : Spec.Orthogonal (R * Qᵀ) := by
    unfold Spec.Orthogonal
    rw [transpose_mul, transpose_transpose, ← Matrix.mul_assoc, Matrix.mul_assoc Q, hR, Matrix.mul_one, hQ']
  have hQt : Spec.Orthogonal Qᵀ := by unfold Spec.Orthogonal; rw [transpose_transpose, hQ']
  have h0 : (0 : K) < tol := lt_of_lt_of_le (by norm_num) htol
  set y : Fin 3 → K := ![7 / 5 * tol, -(1 / 5) * tol, L / 2] with hy
  have hback : Qᵀ *ᵥ (Spec.rigid Q x y) = y + Qᵀ *ᵥ x := by
    rw [Spec.rigid, mulVec_add, mulVec_mulVec, hQ, one_mulVec]
  have e1 := hne Qᵀ (-(Qᵀ *ᵥ x)) (Spec.rigid Q x y) _ hQt (htr _ _)
  have e2 := hne (R * Qᵀ) (-((R * Qᵀ) *ᵥ x)) (Spec.rigid Q x y) _ hRQ (htr _ _)
  rw [← e1] at e2
  have p1 : Spec.rigid Qᵀ (-(Qᵀ *ᵥ x)) (Spec.rigid Q x y) = y := by
    rw [Spec.rigid, hback, add_neg_cancel_right]
  have p2 : Spec.rigid (R * Qᵀ) (-((R * Qᵀ) *ᵥ x)) (Spec.rigid Q x y) = R *ᵥ y := by
    rw [Spec.rigid, ← mulVec_mulVec, ← mulVec_mulVec, hback, mulVec_add, add_neg_cancel_right]
  rw [p1, p2, add_neg_cancel, add_neg_cancel, Matrix.mul_assoc, hQ, Matrix.mul_one] at e2
  have hin : (⟨⟨L, r, R, 0⟩⟩ : Capsule K).contains (R *ᵥ y) tol = .ok true := by
    rw [Capsule.contains_tiny L r hr hr']
    refine Or.inl ⟨fun i => ?_, by linarith⟩
    have : (R *ᵥ y) i - Spec.rigid R 0 ![0, 0, L / 2] i = (![tol, tol, 0] : Fin 3 → K) i := by
      fin_cases i <;> simp [hRdef, hy, Spec.rigid, mulVec, dotProduct, Fin.sum_univ_three] <;> ring
    rw [this]
    fin_cases i <;> simp [abs_of_pos h0, h0.le]
  rw [hin, eq_comm, Capsule.contains_tiny L r hr hr'] at e2
  have hy0 : y 0 = 7 / 5 * tol := rfl
  have hcap : ∀ z : K, ¬ ∀ i, |y i - Spec.rigid 1 0 ![0, 0, z] i| ≤ tol := by
    intro z h
    have := h 0
    rw [hy0] at this
    simp only [Spec.rigid, one_mulVec, add_zero, Matrix.cons_val_zero, sub_zero] at this
    rw [abs_of_pos (by linarith)] at this
    linarith
  rcases e2 with e2 | e2 | e2
  · exact hcap _ e2.1
  · exact hcap _ e2.1
  · unfold Cylinder.contains at e2
    rw [Bool.and_eq_true] at e2
    have := ((Rigeo.contains_tiny r hr hr' _ _ _).mp e2.2).1 0
    have hv : (y ᵥ* (⟨L, r, 1, 0⟩ : Cylinder K).transverseAxes) 0 = 7 / 5 * tol := by
      simp [Cylinder.transverseAxes, vecMul, dotProduct, Fin.sum_univ_three, hy0, Matrix.one_apply]
    rw [hv, mulVec_zero, Pi.zero_apply, sub_zero, abs_of_pos (by linarith)] at this
    have h8 : (tol8 : K) = 1 / 100000000 := rfl
    rw [h8] at this
    linarith

/-- The segment from `(0, 0, -1)` to `(0, 0, 1)`, at the default tolerance. -/
example : ∃ (R : Matrix (Fin 3) (Fin 3) ℚ) (t p : Fin 3 → ℚ) (c' : Capsule ℚ), Spec.Orthogonal R ∧
    (⟨⟨2, 0, 1, 0⟩⟩ : Capsule ℚ).transform (some R) (some t) = .ok c' ∧
    c'.contains (Spec.rigid R t p) ≠ (⟨⟨2, 0, 1, 0⟩⟩ : Capsule ℚ).contains p :=
  C33_capsule_tol ⟨⟨2, 0, 1, 0⟩⟩ Spec.Orthogonal.one (by norm_num) le_rfl (by norm_num) tol8 le_rfl

end Thin

end Rigeo
