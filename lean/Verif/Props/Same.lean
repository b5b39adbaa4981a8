import Verif.Model.Same
import Verif.Props.Polydd
import Verif.Props.Sampling
import Verif.Props.Shapes4

/-!
# C45: `is_same`
-/

namespace Rigeo

open Matrix

section Poly
variable {K : Type} [Field K] [LinearOrder K] [IsStrictOrderedRing K] {d : ℕ}

theorem Poly.containsPolyhedron_hull {P Q : Poly K d} (hP : P.Consistent) :
    Poly.containsPolyhedron (fun p => P.contains p 0) Q.vertices = true ↔ Spec.hull Q.vertices ⊆ Spec.hull P.vertices := by
  rw [containsPolyhedron_iff (fun p => P.contains p 0) (Poly.convex_contains P 0)]
  exact ⟨fun h p hp => (hP.contains_iff p).1 (h p hp), fun h p hp => (hP.contains_iff p).2 (h hp)⟩

/-- C45: with exact arithmetic (`tol=0`), `is_same` on polyhedra holds exactly if they are the same set. -/
theorem C45_poly (P Q : Poly K d) (hP : P.Consistent) (hQ : Q.Consistent) :
    P.isSame Q 0 = true ↔ Spec.hull P.vertices = Spec.hull Q.vertices := by
  unfold Poly.isSame
  rw [Bool.and_eq_true, Poly.containsPolyhedron_hull hP, Poly.containsPolyhedron_hull hQ]
  exact ⟨fun h => subset_antisymm h.2 h.1, fun h => ⟨h.ge, h.le⟩⟩

/-- C45: with any tolerance `is_same` holds on polyhedra that are the same set, however they are represented. -/
theorem C45_poly_tol (P Q : Poly K d) (hP : P.Consistent) (hQ : Q.Consistent) (tol : K) (htol : 0 ≤ tol)
    (h : Spec.hull P.vertices = Spec.hull Q.vertices) : P.isSame Q tol = true := by
  have h0 := (C45_poly P Q hP hQ).2 h
  have hm : ∀ (P : Poly K d) (p : Fin d → K), P.contains p 0 = true → P.contains p tol = true := by
    intro P p hp
    unfold Poly.contains at hp ⊢
    rw [List.all_eq_true] at hp ⊢
    intro ab hab
    have := of_decide_eq_true (hp ab hab)
    exact decide_eq_true (by linarith)
  unfold Poly.isSame Poly.containsPolyhedron at h0 ⊢
  rw [Bool.and_eq_true, List.all_eq_true, List.all_eq_true] at h0 ⊢
  exact ⟨fun p hp => hm _ _ (h0.1 p hp), fun p hp => hm _ _ (h0.2 p hp)⟩

/-- C45: two boxes are the same for `is_same` (`tol=0`) exactly if they are the same set. -/
theorem C45_box (b b' : Box K) (hb : ∀ i, 0 ≤ b.halfExtents i) (hR : Spec.Orthogonal b.rotation)
    (hb' : ∀ i, 0 ≤ b'.halfExtents i) (hR' : Spec.Orthogonal b'.rotation) :
    AnyShape.isSame (.box b) (.box b') (some 0) = .ok true ↔
      Spec.box b.halfExtents b.rotation b.center = Spec.box b'.halfExtents b'.rotation b'.center := by
  have h := C45_poly b.toPoly b'.toPoly (b.toPoly_consistent hb hR) (b'.toPoly_consistent hb' hR')
  have e : ∀ b : Box K, b.toPoly.vertices = b.vertices := fun _ => rfl
  rw [e, e, C25_vertices b hb, C25_vertices b' hb'] at h
  rw [← h]
  show Except.ok _ = Except.ok true ↔ _
  rw [Except.ok.injEq]
  rfl

/-- C45: `is_same` is not symmetric: a polyhedron that is a given box is the same as the box, with any tolerance, but
the box is not the same as the polyhedron. -/
theorem C45_box_poly (b : Box K) (hb : ∀ i, 0 ≤ b.halfExtents i) (hR : Spec.Orthogonal b.rotation) (P : Poly K 3)
    (hP : P.Consistent) (hset : Spec.hull P.vertices = Spec.box b.halfExtents b.rotation b.center) (tol : K) (htol : 0 ≤ tol) :
    AnyShape.isSame (.poly P) (.box b) (some tol) = .ok true ∧ AnyShape.isSame (.box b) (.poly P) (some tol) = .ok false := by
  refine ⟨?_, rfl⟩
  have h := C45_poly_tol P b.toPoly hP (b.toPoly_consistent hb hR) tol htol (by
    have e : b.toPoly.vertices = b.vertices := rfl
    rw [e, C25_vertices b hb, hset])
  show Except.ok _ = _
  rw [← h]
  rfl

/-- The polyhedron of the box itself is such a `P`. -/
example : ∃ P : Poly ℚ 3, P.Consistent ∧ Spec.hull P.vertices = Spec.box ![1, 2, 3] 1 0 :=
  ⟨(⟨![1, 2, 3], 1, 0⟩ : Box ℚ).toPoly,
    Box.toPoly_consistent _ (by intro i; fin_cases i <;> decide +kernel) Spec.Orthogonal.one,
    C25_vertices ⟨![1, 2, 3], 1, 0⟩ (by intro i; fin_cases i <;> decide +kernel)⟩

omit [IsStrictOrderedRing K] in
/-- C45: comparing two capsules always raises `TypeError`; so does passing a tolerance to a cylinder. -/
theorem C45_capsule (c c' : Capsule K) (tol : Option K) :
    AnyShape.isSame (.capsule c) (.capsule c') tol = .error .type := rfl

omit [IsStrictOrderedRing K] in
/-- C45: `Cylinder.is_same` has no `tol` parameter, so passing one raises `TypeError`. -/
theorem C45_cylinder_tol (c : Cylinder K) (s : AnyShape K) (tol : K) :
    AnyShape.isSame (.cylinder c) s (some tol) = .error .type := by
  cases s <;> rfl

/-- C45: a cylinder is the same as itself, and as any cylinder with close attributes. -/
theorem C45_cylinder_refl (c : Cylinder K) : AnyShape.isSame (.cylinder c) (.cylinder c) = .ok true := by
  have hc : ∀ x : K, isclose x x rtol5 tol8 = true := by
    intro x
    unfold isclose
    rw [sub_self, abs_zero]
    have : (0 : K) ≤ tol8 + rtol5 * |x| := by
      have h1 : (0 : K) < tol8 := tol8_pos
      have h2 : (0 : K) ≤ rtol5 := by unfold rtol5; positivity
      positivity
    exact decide_eq_true this
  show Except.ok (c.isSame c) = _
  unfold Cylinder.isSame
  simp [hc]

/-- C45: `Cylinder.is_same` compares rotations, so there are cylinders that are the same point set (described with the
opposite axis) but not the same. -/
theorem C45_cylinder_flip : ∃ c c' : Cylinder K, Spec.Orthogonal c.rotation ∧ Spec.Orthogonal c'.rotation ∧
    Spec.cylinder c.length c.radius c.rotation c.center = Spec.cylinder c'.length c'.radius c'.rotation c'.center ∧
    AnyShape.isSame (.cylinder c) (.cylinder c') = .ok false := by
  refine ⟨⟨2, 1, 1, 0⟩, ⟨2, 1, Matrix.diagonal ![1, -1, -1], 0⟩, Spec.Orthogonal.one, ?_, ?_, ?_⟩
  · unfold Spec.Orthogonal
    rw [diagonal_transpose, diagonal_mul_diagonal, ← diagonal_one]
    congr 1
    ext i; fin_cases i <;> simp
  · ext p
    simp only [Spec.cylinder, Set.mem_ofPred_eq, Spec.rigid, add_zero, one_mulVec]
    constructor
    · rintro ⟨y, h1, h2, hy⟩
      rw [hy]
      refine ⟨Matrix.diagonal ![1, -1, -1] *ᵥ y, ?_, ?_, ?_⟩
      · rw [mulVec_diagonal]; simpa using h1
      · rw [mulVec_diagonal, mulVec_diagonal]; simpa using h2
      · ext i; rw [mulVec_diagonal, mulVec_diagonal]; fin_cases i <;> simp
    · rintro ⟨y, h1, h2, rfl⟩
      refine ⟨Matrix.diagonal ![1, -1, -1] *ᵥ y, ?_, ?_, rfl⟩
      · rw [mulVec_diagonal]; simpa using h1
      · rw [mulVec_diagonal, mulVec_diagonal]; simpa using h2
  · show Except.ok (Cylinder.isSame _ _) = _
    congr 1
    unfold Cylinder.isSame
    rw [Bool.and_eq_false_iff]
    right
    refine decide_eq_false fun h => ?_
    have h1 := of_decide_eq_true (h 1 1)
    simp only [tol8, rtol5] at h1
    norm_num at h1

end Poly

/-! ## Extended arithmetic -/

section Flt
variable {K : Type} [Field K] [LinearOrder K]

theorem Flt.foldl_nan (l : List (Flt K)) : l.foldl Flt.add .nan = .nan := by
  induction l with
  | nil => rfl
  | cons a l ih => simpa [List.foldl_cons, Flt.add] using ih

theorem Flt.add_nan (a : Flt K) : Flt.add a .nan = .nan := by cases a <;> rfl

theorem Flt.foldl_mem_nan (l : List (Flt K)) (h : Flt.nan ∈ l) (a : Flt K) : l.foldl Flt.add a = .nan := by
  induction l generalizing a with
  | nil => simp at h
  | cons b l ih =>
    rw [List.foldl_cons]
    rcases List.mem_cons.mp h with rfl | h
    · rw [Flt.add_nan, Flt.foldl_nan]
    · exact ih h _

theorem Flt.dot_nan {n : ℕ} (u v : Fin n → Flt K) (k : Fin n) (h : Flt.mul (u k) (v k) = .nan) : Flt.dot u v = .nan :=
  Flt.foldl_mem_nan _ (List.mem_map.mpr ⟨k, List.mem_finRange k, h⟩) _

theorem Flt.sum_fin (l : List K) : Flt.sum (l.map Flt.fin) = Flt.fin l.sum := by
  have h : ∀ (l : List K) (a : K), (l.map Flt.fin).foldl Flt.add (Flt.fin a) = Flt.fin (a + l.sum) := by
    intro l
    induction l with
    | nil => intro a; simp
    | cons b l ih =>
      intro a
      rw [List.map_cons, List.foldl_cons, List.sum_cons, ← add_assoc]
      exact ih (a + b)
  rw [Flt.sum, h, zero_add]

theorem Flt.dot_fin {n : ℕ} (u v : Fin n → K) : Flt.dot (fun i => Flt.fin (u i)) (fun i => Flt.fin (v i)) = Flt.fin (u ⬝ᵥ v) := by
  unfold Flt.dot
  have : ((List.finRange n).map fun k => Flt.mul (Flt.fin (u k)) (Flt.fin (v k))) =
      ((List.finRange n).map fun k => u k * v k).map Flt.fin := by
    rw [List.map_map]; rfl
  rw [this, Flt.sum_fin]
  congr 1

theorem Flt.matmul_fin {l m n : ℕ} (A : Matrix (Fin l) (Fin m) K) (B : Matrix (Fin m) (Fin n) K) :
    Flt.matmul (fun i j => Flt.fin (A i j)) (fun i j => Flt.fin (B i j)) = fun i j => Flt.fin ((A * B) i j) := by
  funext i j
  exact Flt.dot_fin _ _

/-- If all the inverse half extents are finite, the matrix compared by `is_same` is `Q`. -/
theorem Ellipsoid.QFlt_fin {d : ℕ} (e : Ellipsoid K d) {Q : Matrix (Fin (d + 1)) (Fin (d + 1)) K} (hQ : e.Q = .ok Q)
    (i j : Fin (d + 1)) : e.QFlt i j = .fin (Q i j) := by
  have hfin : ∀ i, (e.hInv i).isSome := by
    by_contra h
    unfold Ellipsoid.Q Ellipsoid.S Ellipsoid.hInvFin at hQ
    rw [if_neg h] at hQ
    simp [bind, Except.bind] at hQ
  have hi : ∀ i, e.hInvFlt i = .fin (e.hInvNz i) := by
    intro i
    unfold Ellipsoid.hInvFlt Ellipsoid.hInvNz
    obtain ⟨x, hx⟩ := Option.isSome_iff_exists.mp (hfin i)
    rw [hx]; rfl
  have hS : e.SFlt = fun i j => .fin ((e.rotation * Matrix.diagonal (fun i => e.hInvNz i ^ 2) * e.rotationᵀ) i j) := by
    unfold Ellipsoid.SFlt
    have hD : (fun i j : Fin d => if i = j then Flt.mul (e.hInvFlt i) (e.hInvFlt i) else Flt.fin 0) =
        fun i j => Flt.fin (Matrix.diagonal (fun i => e.hInvNz i ^ 2) i j) := by
      funext i j
      rw [Matrix.diagonal_apply]
      split_ifs with h
      · rw [hi]; simp [Flt.mul, sq]
      · rfl
    dsimp only
    rw [hD, Flt.matmul_fin]
    exact Flt.matmul_fin _ e.rotationᵀ
  unfold Ellipsoid.Q Ellipsoid.S Ellipsoid.hInvFin at hQ
  rw [if_pos hfin] at hQ
  obtain rfl := Except.ok.inj hQ
  unfold Ellipsoid.QFlt
  dsimp only
  set S := e.rotation * Matrix.diagonal (fun i => e.hInvNz i ^ 2) * e.rotationᵀ with hSdef
  have e1 : (fun i : Fin d => Flt.dot (e.SFlt i) fun i => Flt.fin (e.center i)) = fun i => .fin ((S *ᵥ e.center) i) := by
    funext i; rw [hS]; exact Flt.dot_fin _ _
  have e2 : (fun j : Fin d => Flt.dot (fun i => Flt.fin (e.center i)) fun i => e.SFlt i j) =
      fun j => .fin ((e.center ᵥ* S) j) := by
    funext j; rw [hS]; exact Flt.dot_fin _ _
  rw [e1, e2, Flt.dot_fin, hS]
  unfold qMatrix
  refine Fin.lastCases ?_ (fun i => ?_) i
  · refine Fin.lastCases ?_ (fun j => ?_) j
    · rw [Fin.snoc_last, Fin.snoc_last, bordered_ll]
      simp [Flt.neg, Flt.add, sub_eq_add_neg]
    · rw [Fin.snoc_last, Fin.snoc_castSucc, bordered_lc]
  · refine Fin.lastCases ?_ (fun j => ?_) j
    · rw [Fin.snoc_castSucc, Fin.snoc_last, bordered_cl]
      exact Flt.dot_fin _ _
    · rw [Fin.snoc_castSucc, Fin.snoc_castSucc, bordered_cc]
      rfl

end Flt

/-! ## Ellipsoids -/

/-- A symmetric matrix is determined by its quadratic form. -/
theorem eq_of_quad_eq {n : ℕ} {A B : Matrix (Fin n) (Fin n) ℝ} (hA : Aᵀ = A) (hB : Bᵀ = B)
    (h : ∀ v : Fin n → ℝ, v ⬝ᵥ (A *ᵥ v) = v ⬝ᵥ (B *ᵥ v)) : A = B := by
  ext i j
  have hs : ∀ (M : Matrix (Fin n) (Fin n) ℝ) (k l : Fin n), Pi.single k 1 ⬝ᵥ (M *ᵥ Pi.single l 1) = M k l := by
    intro M k l
    simp
  have h1 := h (Pi.single i 1 + Pi.single j 1)
  have h2 := h (Pi.single i 1)
  have h3 := h (Pi.single j 1)
  simp only [mulVec_add, add_dotProduct, dotProduct_add, hs] at h1
  rw [hs, hs] at h2 h3
  have h4 : A j i = A i j := congrFun (congrFun hA i) j
  have h5 : B j i = B i j := congrFun (congrFun hB i) j
  rw [h4, h5] at h1
  linarith

/-- Two ellipsoids given by positive definite matrices are the same set only if centers and matrices agree. -/
theorem ellipsoid_unique {n : ℕ} {S S' : Matrix (Fin n) (Fin n) ℝ} {c c' : Fin n → ℝ} (hS : Sᵀ = S) (hS' : S'ᵀ = S')
    (hp : ∀ v : Fin n → ℝ, v ≠ 0 → 0 < v ⬝ᵥ (S *ᵥ v)) (hp' : ∀ v : Fin n → ℝ, v ≠ 0 → 0 < v ⬝ᵥ (S' *ᵥ v))
    (h : ∀ x : Fin n → ℝ, (x - c) ⬝ᵥ (S *ᵥ (x - c)) ≤ 1 ↔ (x - c') ⬝ᵥ (S' *ᵥ (x - c')) ≤ 1) : c = c' ∧ S = S' := by
  have hneg : ∀ (M : Matrix (Fin n) (Fin n) ℝ) (v : Fin n → ℝ), (-v) ⬝ᵥ (M *ᵥ (-v)) = v ⬝ᵥ (M *ᵥ v) := by
    intro M v
    rw [mulVec_neg, neg_dotProduct, dotProduct_neg, neg_neg]
  have hsmul : ∀ (M : Matrix (Fin n) (Fin n) ℝ) (t : ℝ) (v : Fin n → ℝ),
      (t • v) ⬝ᵥ (M *ᵥ (t • v)) = t ^ 2 * (v ⬝ᵥ (M *ᵥ v)) := by
    intro M t v
    rw [mulVec_smul, smul_dotProduct, dotProduct_smul, smul_eq_mul, smul_eq_mul]
    ring
  have hc : c = c' := by
    by_contra hne
    have hw : c' - c ≠ 0 := fun h0 => hne (sub_eq_zero.mp h0).symm
    have hstep : ∀ k : ℕ, (((2 * k : ℝ)) • (c' - c)) ⬝ᵥ (S *ᵥ ((2 * k : ℝ) • (c' - c))) ≤ 1 := by
      intro k
      induction k with
      | zero => simp
      | succ k ih =>
        have h1 := (h (c - (2 * k : ℝ) • (c' - c))).1 (by rwa [sub_sub_cancel_left, hneg])
        have e1 : c - (2 * k : ℝ) • (c' - c) - c' = -((c + (2 * (k + 1 : ℕ) : ℝ) • (c' - c)) - c') := by
          ext i; simp; ring
        rw [e1, hneg] at h1
        have h2 := (h _).2 h1
        rwa [add_sub_cancel_left] at h2
    obtain ⟨k, hk⟩ := exists_nat_gt (1 / ((c' - c) ⬝ᵥ (S *ᵥ (c' - c))))
    have h1 := hstep k
    rw [hsmul] at h1
    have h2 := hp _ hw
    rw [div_lt_iff₀ h2] at hk
    have h3 : (1 : ℝ) ≤ k := by
      rcases Nat.eq_zero_or_pos k with h0 | h0
      · rw [h0] at hk; simp at hk; linarith
      · exact_mod_cast h0
    nlinarith
  subst hc
  refine ⟨rfl, eq_of_quad_eq hS hS' fun v => ?_⟩
  rcases eq_or_ne v 0 with rfl | hv
  · simp
  · have key : ∀ {A B : Matrix (Fin n) (Fin n) ℝ}, 0 < v ⬝ᵥ (A *ᵥ v) →
        (∀ x : Fin n → ℝ, (x - c) ⬝ᵥ (A *ᵥ (x - c)) ≤ 1 → (x - c) ⬝ᵥ (B *ᵥ (x - c)) ≤ 1) →
        v ⬝ᵥ (B *ᵥ v) ≤ v ⬝ᵥ (A *ᵥ v) := by
      intro A B hA hAB
      have hsq : Real.sqrt (v ⬝ᵥ (A *ᵥ v)) ^ 2 = v ⬝ᵥ (A *ᵥ v) := Real.sq_sqrt hA.le
      have h1 := hAB (c + (Real.sqrt (v ⬝ᵥ (A *ᵥ v)))⁻¹ • v)
        (by rw [add_sub_cancel_left, hsmul, inv_pow, hsq, inv_mul_cancel₀ hA.ne'])
      rw [add_sub_cancel_left, hsmul, inv_pow, hsq, inv_mul_le_iff₀ hA, mul_one] at h1
      exact h1
    exact le_antisymm (key (hp' v hv) fun x hx => (h x).2 hx) (key (hp v hv) fun x hx => (h x).1 hx)

/-- The `Q` matrix of an ellipsoid without degenerate directions. -/
theorem Ellipsoid.Q_eq {n : ℕ} (e : Ellipsoid ℝ n) (he : ∀ i, 1 / 100000000 < e.halfExtents i) :
    e.Q = .ok (qMatrix (e.rotation * Matrix.diagonal (fun i => (1 / e.halfExtents i) ^ 2) * e.rotationᵀ) e.center) := by
  have h0 : ∀ i, e.hInv i = some (1 / e.halfExtents i) := fun i => by
    unfold Ellipsoid.hInv
    exact invWithZero_some (he i)
  have h1 : e.hInvNz = fun i => 1 / e.halfExtents i := by
    ext i
    unfold Ellipsoid.hInvNz
    rw [h0]; rfl
  unfold Ellipsoid.Q Ellipsoid.S Ellipsoid.hInvFin
  rw [if_pos (fun i => by rw [h0]; rfl), h1]
  rfl

/-- C45: for ellipsoids whose half extents all exceed `1e-8`, `is_same` compares the matrices `Q` entry by entry (up to
the absolute tolerance given and a relative tolerance of `1e-5`), and these agree exactly if the ellipsoids are the same
point set. -/
theorem C45_ellipsoid {n : ℕ} (e e' : Ellipsoid ℝ n) (hR : Spec.Orthogonal e.rotation) (hR' : Spec.Orthogonal e'.rotation)
    (he : ∀ i, 1 / 100000000 < e.halfExtents i) (he' : ∀ i, 1 / 100000000 < e'.halfExtents i) :
    ∃ Q Q', e.Q = .ok Q ∧ e'.Q = .ok Q' ∧
      (Q = Q' ↔ Spec.ellipsoid e.halfExtents e.rotation e.center = Spec.ellipsoid e'.halfExtents e'.rotation e'.center) ∧
      ∀ tol : ℝ, e.isSame e' tol = true ↔ ∀ i j, |Q i j - Q' i j| ≤ tol + 1 / 100000 * |Q' i j| := by
  refine ⟨_, _, e.Q_eq he, e'.Q_eq he', ?_, fun tol => ?_⟩
  · have hp : ∀ i, 0 < e.halfExtents i := fun i => lt_trans (by norm_num) (he i)
    have hp' : ∀ i, 0 < e'.halfExtents i := fun i => lt_trans (by norm_num) (he' i)
    have hsym : ∀ e : Ellipsoid ℝ n, (e.rotation * Matrix.diagonal (fun i => (1 / e.halfExtents i) ^ 2) * e.rotationᵀ)ᵀ =
        e.rotation * Matrix.diagonal (fun i => (1 / e.halfExtents i) ^ 2) * e.rotationᵀ := by
      intro e
      rw [transpose_mul, transpose_mul, transpose_transpose, diagonal_transpose, Matrix.mul_assoc]
    have hpd : ∀ e : Ellipsoid ℝ n, Spec.Orthogonal e.rotation → (∀ i, 0 < e.halfExtents i) → ∀ v : Fin n → ℝ, v ≠ 0 →
        0 < v ⬝ᵥ ((e.rotation * Matrix.diagonal (fun i => (1 / e.halfExtents i) ^ 2) * e.rotationᵀ) *ᵥ v) := by
      intro e hR hp v hv
      rw [quad_diag]
      have h1 : e.rotationᵀ *ᵥ v ≠ 0 := fun h => hv (by
        have h2 := dot_mulVec_orthogonal hR.transpose v v
        rw [h, dotProduct_zero] at h2
        exact dot_self_eq_zero.mp h2.symm)
      obtain ⟨i, hi⟩ := Function.ne_iff.mp h1
      refine Finset.sum_pos' (fun i _ => ?_) ⟨i, Finset.mem_univ i, ?_⟩
      · positivity
      · have := hp i
        have hi' : (e.rotationᵀ *ᵥ v) i ≠ 0 := hi
        positivity
    constructor
    · intro h
      ext p
      have h1 := qMatrix_quad _ (hsym e) e.center p 1 1
      have h2 := qMatrix_quad _ (hsym e') e'.center p 1 1
      rw [h, h2] at h1
      rw [ellipsoid_of_shape hR _ _ _ hp, ellipsoid_of_shape hR' _ _ _ hp']
      simp only [one_smul] at h1
      constructor <;> intro h3 <;> linarith
    · intro h
      obtain ⟨h1, h2⟩ := ellipsoid_unique (hsym e) (hsym e') (hpd e hR hp) (hpd e' hR' hp') (c := e.center) (c' := e'.center)
        fun x => by
          rw [← ellipsoid_of_shape hR _ _ _ hp, ← ellipsoid_of_shape hR' _ _ _ hp', h]
      rw [h1, h2]
  · unfold Ellipsoid.isSame
    rw [decide_eq_true_iff]
    refine forall_congr' fun i => forall_congr' fun j => ?_
    rw [e.QFlt_fin (e.Q_eq he), e'.QFlt_fin (e'.Q_eq he')]
    simp only [Flt.isclose, isclose, rtol5]
    exact ⟨of_decide_eq_true, fun h => decide_eq_true h⟩

/-- C45: two descriptions of the same ellipsoid are recognized, whatever the rotations and the order of the half
extents. -/
theorem C45_ellipsoid_same {n : ℕ} (e e' : Ellipsoid ℝ n) (hR : Spec.Orthogonal e.rotation)
    (hR' : Spec.Orthogonal e'.rotation) (he : ∀ i, 1 / 100000000 < e.halfExtents i)
    (he' : ∀ i, 1 / 100000000 < e'.halfExtents i) (tol : ℝ) (htol : 0 ≤ tol)
    (h : Spec.ellipsoid e.halfExtents e.rotation e.center = Spec.ellipsoid e'.halfExtents e'.rotation e'.center) :
    e.isSame e' tol = true := by
  obtain ⟨Q, Q', -, -, h1, h2⟩ := C45_ellipsoid e e' hR hR' he he'
  rw [h2, h1.2 h]
  intro i j
  rw [sub_self, abs_zero]
  positivity

/-- A case where the two descriptions differ. -/
example : (⟨![1, 2], 1, 0⟩ : Ellipsoid ℝ 2).isSame ⟨![2, 1], !![0, 1; 1, 0], 0⟩ = true := by
  have hR : Spec.Orthogonal (!![0, 1; 1, 0] : Matrix (Fin 2) (Fin 2) ℝ) := by
    unfold Spec.Orthogonal
    ext i j; fin_cases i <;> fin_cases j <;> simp [Matrix.mul_apply]
  refine C45_ellipsoid_same _ _ Spec.Orthogonal.one hR (by intro i; fin_cases i <;> norm_num)
    (by intro i; fin_cases i <;> norm_num) _ tol8_pos.le ?_
  ext p
  rw [Spec_ellipsoid_iff Spec.Orthogonal.one, Spec_ellipsoid_iff hR]
  simp [Fin.forall_fin_two, Fin.sum_univ_two, Matrix.mulVec, dotProduct, add_comm]

section Degenerate
variable {K : Type} [Field K] [LinearOrder K] [IsStrictOrderedRing K]

/-- C45: an ellipsoid with a degenerate axis (half extent at most `1e-8`) that is orthogonal to some coordinate axis is
not the same as itself, with any tolerance, because `0 * inf` is `nan`. -/
theorem C45_degenerate {n : ℕ} (e : Ellipsoid K n) (i j : Fin n) (hi : |e.halfExtents i| ≤ 1 / 100000000)
    (hj : e.rotation j i = 0) (tol : K) : e.isSame e tol = false := by
  have h0 : e.hInvFlt i = .pinf := by
    unfold Ellipsoid.hInvFlt Ellipsoid.hInv Ellipsoid.invWithZero
    have : isclose (e.halfExtents i) 0 0 tol8 = true := by
      unfold isclose tol8
      rw [sub_zero, abs_zero, mul_zero, add_zero]
      exact decide_eq_true (by simpa using hi)
    rw [if_pos this]
  have hS : ∀ k, e.SFlt j k = .nan := by
    intro k
    unfold Ellipsoid.SFlt
    refine Flt.dot_nan _ _ i ?_
    have : Flt.matmul (fun i j => Flt.fin (e.rotation i j))
        (fun i j => if i = j then Flt.mul (e.hInvFlt i) (e.hInvFlt i) else Flt.fin 0) j i = Flt.nan := by
      refine Flt.dot_nan _ _ i ?_
      simp [h0, hj, Flt.mul, Flt.infMul]
    rw [this]
    rfl
  unfold Ellipsoid.isSame
  refine decide_eq_false fun h => ?_
  have h1 := h j.castSucc i.castSucc
  have h2 : e.QFlt j.castSucc i.castSucc = .nan := by
    unfold Ellipsoid.QFlt
    dsimp only
    rw [Fin.snoc_castSucc, Fin.snoc_castSucc, hS]
    rfl
  rw [h2] at h1
  simp [Flt.isclose] at h1

/-- C45: in particular no axis-aligned degenerate ellipsoid in two or more dimensions is the same as itself. -/
theorem C45_degenerate_aligned {n : ℕ} (e : Ellipsoid K (n + 2)) (hR : e.rotation = 1) (i : Fin (n + 2))
    (hi : e.halfExtents i = 0) (tol : K) : e.isSame e tol = false := by
  obtain ⟨j, hj⟩ : ∃ j, j ≠ i := exists_ne i
  exact C45_degenerate e i j (by rw [hi]; simp) (by rw [hR, Matrix.one_apply_ne hj]) tol

/-- C45: on the other hand different degenerate ellipsoids can be the same: all single points on the positive half of
the line are. -/
theorem C45_degenerate_points (c c' : K) (hc : 0 < c) (hc' : 0 < c') (tol : K) :
    (⟨![0], 1, ![c]⟩ : Ellipsoid K 1).isSame ⟨![0], 1, ![c']⟩ tol = true := by
  have h0 : ∀ c : K, (⟨![0], 1, ![c]⟩ : Ellipsoid K 1).hInvFlt 0 = .pinf := by
    intro c
    unfold Ellipsoid.hInvFlt Ellipsoid.hInv Ellipsoid.invWithZero
    have : isclose ((![0] : Fin 1 → K) 0) 0 0 tol8 = true := by
      unfold isclose
      have : (0 : K) < tol8 := tol8_pos
      simp [this.le]
    dsimp only
    rw [if_pos this]
  have hS : ∀ c : K, (⟨![0], 1, ![c]⟩ : Ellipsoid K 1).SFlt = fun _ _ => .pinf := by
    intro c
    funext i j
    obtain rfl : i = 0 := Subsingleton.elim _ _
    obtain rfl : j = 0 := Subsingleton.elim _ _
    unfold Ellipsoid.SFlt
    simp [Flt.matmul, Flt.dot, Flt.sum, h0, Flt.mul, Flt.infMul, Flt.add, List.finRange]
  have hQ : ∀ c : K, 0 < c → (⟨![0], 1, ![c]⟩ : Ellipsoid K 1).QFlt =
      Fin.snoc (α := fun _ => Fin 2 → Flt K) (fun _ => Fin.snoc (α := fun _ => Flt K) (fun _ => Flt.ninf) Flt.pinf)
        (Fin.snoc (α := fun _ => Flt K) (fun _ => Flt.pinf) Flt.ninf) := by
    intro c hc
    unfold Ellipsoid.QFlt
    rw [hS]
    simp [Flt.dot, Flt.sum, Flt.mul, Flt.infMul, Flt.add, Flt.neg, List.finRange, hc, hc.ne']
  unfold Ellipsoid.isSame
  rw [hQ c hc, hQ c' hc']
  refine decide_eq_true fun i j => ?_
  fin_cases i <;> fin_cases j <;> rfl

end Degenerate

/-- C45: two parallel disks of different radii in different planes are the same. -/
theorem C45_degenerate_disks : ∃ e e' : Ellipsoid ℚ 3, Spec.Orthogonal e.rotation ∧ e.rotation = e'.rotation ∧
    (∀ i, Spec.Resolved (e.halfExtents i)) ∧ (∀ i, Spec.Resolved (e'.halfExtents i)) ∧
    Spec.ellipsoid e.halfExtents e.rotation e.center ∩ Spec.ellipsoid e'.halfExtents e'.rotation e'.center = ∅ ∧
    e.isSame e' = true := by
  have hR : Spec.Orthogonal (!![1/3, 2/3, 2/3; 2/3, 1/3, -2/3; 2/3, -2/3, 1/3] : Matrix (Fin 3) (Fin 3) ℚ) := by
    unfold Spec.Orthogonal; decide +kernel
  refine ⟨⟨![0, 1, 1], !![1/3, 2/3, 2/3; 2/3, 1/3, -2/3; 2/3, -2/3, 1/3], ![1, 1, 1]⟩,
    ⟨![0, 2, 3], !![1/3, 2/3, 2/3; 2/3, 1/3, -2/3; 2/3, -2/3, 1/3], ![2, 2, 2]⟩, hR, rfl, ?_, ?_, ?_, ?_⟩
  · intro i; unfold Spec.Resolved; fin_cases i <;> simp <;> norm_num
  · intro i; unfold Spec.Resolved; fin_cases i <;> simp <;> norm_num
  · refine Set.eq_empty_of_forall_notMem fun p hp => ?_
    have h1 := ((Spec_ellipsoid_iff hR _ _ _).1 hp.1).1 0 rfl
    have h2 := ((Spec_ellipsoid_iff hR _ _ _).1 hp.2).1 0 rfl
    simp [Matrix.mulVec, dotProduct, Fin.sum_univ_three] at h1 h2
    linarith
  · decide +kernel

/-- The hypotheses of `C45_degenerate_aligned` hold for a flat disk. -/
example : (⟨![1, 1, 0], 1, 0⟩ : Ellipsoid ℚ 3).isSame ⟨![1, 1, 0], 1, 0⟩ = false :=
  C45_degenerate_aligned _ rfl 2 rfl _

end Rigeo
