import Verif.Model.Wrappers
import Verif.Props.Convergence
import Verif.Props.Support

/-!
# C107: feasibility problems and other thin functions
-/

namespace Rigeo

open Matrix

/-- What holds at arbitrarily high orders holds in the limit. -/
theorem ConvergesTo.frequently {c : ℕ → Matrix (Fin 4) (Fin 4) ℝ → Prop} {S : Set (Fin 3 → ℝ)} (h : ConvergesTo c S)
    (hS : IsCompact S) {J : Matrix (Fin 4) (Fin 4) ℝ} (hJ : Jᵀ = J) (hc : ∀ d₀, ∃ d, d₀ ≤ d ∧ c d J) : RealJ S J := by
  refine realizable_closed hS fun δ hδ => ?_
  obtain ⟨d₀, h1, h2⟩ := h δ hδ
  obtain ⟨d, hd, hcd⟩ := hc d₀
  obtain ⟨J', -, k2, k3, k4⟩ := h2 d hd J hJ hcd
  unfold RealJ at k2
  rw [k3] at k2
  exact ⟨_, _, k2, fun i => k4 _ _, fun i j => k4 _ _⟩

/-- The value of a feasibility problem is zero if its constraints can be satisfied and infinite otherwise. -/
theorem feasibilityValue_eq {c : Py Prop} {p : Prop} (h : c = .ok p) :
    (p → feasibilityValue c = .ok 0) ∧ (¬ p → feasibilityValue c = .ok ⊤) := by
  subst h
  constructor
  · intro hp
    show Except.ok (⨅ _ : p, (0 : EReal)) = _
    rw [iInf_pos hp]
  · intro hp
    show Except.ok (⨅ _ : p, (0 : EReal)) = _
    rw [iInf_neg hp]

theorem feasibilityValue_holds {c : Py Prop} (h : Py.Holds c) : feasibilityValue c = .ok 0 := by
  obtain ⟨p, rfl, hp⟩ := h
  exact (feasibilityValue_eq rfl).1 hp

/-- The relaxation raises no exception at positive orders if the degrees are at most twice the order. -/
theorem momentSdp_ok {d : ℕ} (hd : 1 ≤ d) (ps : List (Polynomial ℝ 3)) (hp : ∀ p ∈ ps, p.WF ∧ ∃ D, p.degree = .ok D ∧ D ≤ 2 * d)
    (J : Matrix (Fin 4) (Fin 4) ℝ) : ∃ p, momentSdp ps J d = .ok p := by
  have hd0 : d ≠ 0 := by omega
  obtain ⟨c0, h0, -⟩ := localizing_ok hd (0 : Matrix (Fin (Polynomial.dim 3 d)) (Fin (Polynomial.dim 3 d)) ℝ) ps hp
  have hm0 := momentConstraints_ok hd (0 : Matrix (Fin (Polynomial.dim 3 d)) (Fin (Polynomial.dim 3 d)) ℝ)
  unfold momentSdp
  rw [if_neg hd0]
  dsimp only
  rw [hm0, h0]
  exact ⟨_, rfl⟩

theorem poly_sdp_ok (P : Poly ℝ 3) (hP : ∀ f ∈ P.faceForm.faces, f ≠ (0, 0)) (J : Matrix (Fin 4) (Fin 4) ℝ) (eps : ℝ) (heps : 0 ≤ eps)
    (d : ℕ) (hd : 1 ≤ d) : ∃ p, P.momentSdpConstraints (.mat J) eps d = .ok p := by
  obtain ⟨a, ha, -⟩ := C19_mat J eps heps
  unfold Poly.momentSdpConstraints
  rw [ha]
  refine momentSdp_ok hd _ (fun p hp => ?_) J
  obtain ⟨f, hf, rfl⟩ := List.mem_map.mp hp
  obtain ⟨D, hD, hD'⟩ := affine_degree f.1 f.2 (hP f hf)
  exact ⟨(C21_affine f.1 f.2 0).1, D, hD, by omega⟩

theorem cylinder_sdp_ok (c : Cylinder ℝ) (J : Matrix (Fin 4) (Fin 4) ℝ) (eps : ℝ) (heps : 0 ≤ eps)
    (d : ℕ) (hd : 1 ≤ d) : ∃ p, c.momentSdpConstraints (.mat J) eps d = .ok p := by
  obtain ⟨a, ha, -⟩ := C19_mat J eps heps
  unfold Cylinder.momentSdpConstraints
  rw [ha]
  exact momentSdp_ok hd _ (fun f hf => by
    obtain ⟨h1, D, h2, h3⟩ := poly0s_wf c f hf
    exact ⟨h1, D, h2, by omega⟩) _

/-- Relaxations that converge and raise no exception have infinite value from some order on at parameters that are not realizable. -/
theorem eventually_infeasible {c : ℕ → Matrix (Fin 4) (Fin 4) ℝ → Py Prop} {S : Set (Fin 3 → ℝ)}
    (h : ConvergesTo (fun d J => Py.Holds (c d J)) S) (hS : IsCompact S) {q : IP ℝ} (hq : q.Hᵀ = q.H)
    (hok : ∀ d, 1 ≤ d → ∃ p, c d q.J = .ok p) (hn : ¬ Spec.Realizable S q.mass q.h q.H) :
    ∃ d₀ : ℕ, ∀ d, d₀ ≤ d → feasibilityValue (c d q.J) = .ok ⊤ := by
  by_contra hcon
  push Not at hcon
  refine hn ((q.realJ_iff _).mp (h.frequently hS (q.J_symm hq) fun d₀ => ?_))
  obtain ⟨d, hd, hv⟩ := hcon (max d₀ 1)
  obtain ⟨p, hp⟩ := hok d ((le_max_right _ _).trans hd)
  refine ⟨d, (le_max_left _ _).trans hd, p, hp, ?_⟩
  by_contra hpp
  exact hv ((feasibilityValue_eq hp).2 hpp)

/-- C107: the feasibility problem of a bounded polyhedron has value zero at every order for the parameters of a mass distribution inside
the polyhedron, and infinite value from some order on for all other parameters; the argument `eps` has no effect. -/
theorem C107_poly (P : Poly ℝ 3) (hP : ∀ f ∈ P.faceForm.faces, f ≠ (0, 0))
    (hB : Spec.Bounded (Spec.halfspaces P.faceForm.faces)) (q : IP ℝ) (hq : q.Hᵀ = q.H) (eps : ℝ) (heps : 0 ≤ eps) :
    (Spec.Realizable (Spec.halfspaces P.faceForm.faces) q.mass q.h q.H →
      ∀ d, 1 ≤ d → P.momentSdpFeasibilityProblem (.mat q.J) eps d = .ok 0) ∧
    (¬ Spec.Realizable (Spec.halfspaces P.faceForm.faces) q.mass q.h q.H →
      ∃ d₀ : ℕ, ∀ d, d₀ ≤ d → P.momentSdpFeasibilityProblem (.mat q.J) eps d = .ok ⊤) :=
  ⟨fun h d hd => feasibilityValue_holds ((C87_poly P hP hB q hq eps heps).mpr h d hd),
    fun h => eventually_infeasible (poly_converges P hP hB eps heps) (halfspaces_compact _ hB) hq
      (fun d hd => poly_sdp_ok P hP _ eps heps d hd) h⟩

/-- C107: the same for boxes in any pose. -/
theorem C107_box (b : Box ℝ) (hR : Spec.Orthogonal b.rotation) (q : IP ℝ) (hq : q.Hᵀ = q.H) (eps : ℝ) (heps : 0 ≤ eps) :
    (Spec.Realizable (Spec.box b.halfExtents b.rotation b.center) q.mass q.h q.H →
      ∀ d, 1 ≤ d → b.momentSdpFeasibilityProblem (.mat q.J) eps d = .ok 0) ∧
    (¬ Spec.Realizable (Spec.box b.halfExtents b.rotation b.center) q.mass q.h q.H →
      ∃ d₀ : ℕ, ∀ d, d₀ ≤ d → b.momentSdpFeasibilityProblem (.mat q.J) eps d = .ok ⊤) := by
  have := C107_poly b.toPoly (box_rows_ne b hR) (box_bounded' b hR) q hq eps heps
  rwa [box_halfspaces b hR] at this

/-- C107: the same for cylinders in any pose. -/
theorem C107_cylinder (c : Cylinder ℝ) (hR : Spec.Orthogonal c.rotation) (q : IP ℝ) (hq : q.Hᵀ = q.H) (eps : ℝ) (heps : 0 ≤ eps) :
    (Spec.Realizable (Spec.cylinder c.length c.radius c.rotation c.center) q.mass q.h q.H →
      ∀ d, 1 ≤ d → c.momentSdpFeasibilityProblem (.mat q.J) eps d = .ok 0) ∧
    (¬ Spec.Realizable (Spec.cylinder c.length c.radius c.rotation c.center) q.mass q.h q.H →
      ∃ d₀ : ℕ, ∀ d, d₀ ≤ d → c.momentSdpFeasibilityProblem (.mat q.J) eps d = .ok ⊤) :=
  ⟨fun h d hd => feasibilityValue_holds ((C87_cylinder c hR q hq eps heps).mpr h d hd),
    fun h => eventually_infeasible (cylinder_converges c hR eps heps) (cylinder_compact' _ _ hR _) hq
      (fun d hd => cylinder_sdp_ok c _ eps heps d hd) h⟩

/-- C107: no order decides the question for a box of positive half extents: at every order there are parameters that are not realizable in
the box although the value of the feasibility problem is zero. -/
theorem C107_box_not_exact (b : Box ℝ) (hR : Spec.Orthogonal b.rotation) (hh : ∀ i, 0 < b.halfExtents i) (d : ℕ) (hd : 1 ≤ d) :
    ∃ q : IP ℝ, q.mass = 1 ∧ q.Hᵀ = q.H ∧ b.momentSdpFeasibilityProblem (.mat q.J) 0 d = .ok 0 ∧
      ¬ Spec.Realizable (Spec.box b.halfExtents b.rotation b.center) q.mass q.h q.H := by
  obtain ⟨D, -, h1, h2⟩ := C85_box b hR hh
  obtain ⟨q, hm, hs, ht, ha⟩ := h2 d hd
  exact ⟨q, hm, hs, feasibilityValue_holds (ha 0 le_rfl).1, fun hr => absurd (h1 q hr) (not_le.mpr ht)⟩

/-- C107: the helper of `poly.py` that nothing calls lists the same vertices, in the same order, as the one of `box.py`. -/
theorem C107_box_vertices {K : Type} [Field K] (h c : Fin 3 → K) (R : Matrix (Fin 3) (Fin 3) K) :
    Poly.boxVerts h c R = Box.boxVerts h R c := by
  have e : ([![h 0, h 1, h 2], ![h 0, h 1, -h 2], ![h 0, -h 1, h 2], ![h 0, -h 1, -h 2], ![-h 0, h 1, h 2], ![-h 0, h 1, -h 2],
      ![-h 0, -h 1, h 2], ![-h 0, -h 1, -h 2]] : List (Fin 3 → K)) = boxVertices h := by
    simp only [boxVertices, signCombos, List.flatMap_cons, List.flatMap_nil, List.map_cons, List.map_nil, List.append_nil, List.cons_append,
      List.nil_append, List.cons.injEq, and_true]
    refine ⟨?_, ?_, ?_, ?_, ?_, ?_, ?_, ?_⟩ <;> ext i <;> fin_cases i <;> first | exact (one_mul _).symm | exact (neg_one_mul _).symm
  unfold Poly.boxVerts Box.boxVerts
  rw [← e]

/-- C107: the capsule of a cylinder reports the pose and the sizes of the cylinder; its full length exceeds the inner one by a diameter. -/
theorem C107_capsule {K : Type} [Field K] (c : Cylinder K) :
    c.capsule.rotation = c.rotation ∧ c.capsule.radius = c.radius ∧ c.capsule.innerLength = c.length ∧
      c.capsule.fullLength - c.capsule.innerLength = 2 * c.radius :=
  ⟨rfl, rfl, rfl, by show c.length + 2 * c.radius - c.length = _; ring⟩

/-- C107: the random spatial vector has as its angular part the first three and as its linear part the last three numbers drawn, for any
sampler; the variances are used in the order of `vec`. -/
theorem C107_random {K : Type} [Field K] (sampler : (Fin 6 → K) → Matrix (Fin 6) (Fin 6) K → (Fin 6 → K)) (mean cov : SV K) :
    (SV.randomDiagNormal sampler mean cov).vec = sampler mean.vec (Matrix.diagonal cov.vec) := SV.fromVec_vec _

/-- A point mass outside the unit cube is found out by the feasibility problem. -/
example : ∃ d₀ : ℕ, ∀ d, d₀ ≤ d → (⟨fun _ => 1, 1, 0⟩ : Box ℝ).momentSdpFeasibilityProblem
    (.mat (⟨1, ![2, 0, 0], !![4, 0, 0; 0, 0, 0; 0, 0, 0]⟩ : IP ℝ).J) 0 d = .ok ⊤ := by
  refine (C107_box ⟨fun _ => 1, 1, 0⟩ Spec.Orthogonal.one _ ?_ 0 le_rfl).2 ?_
  · ext i j; fin_cases i <;> fin_cases j <;> rfl
  · intro hr
    have hx : ∀ x ∈ Spec.box (fun _ => 1 : Fin 3 → ℝ) 1 0, |x 0| ≤ 1 := fun x hx => by
      simpa using (Spec_box_iff Spec.Orthogonal.one _ _ _).mp hx 0
    obtain ⟨-, h, -⟩ := Spec.Realizable.second_le hr ![1, 0, 0] (-1) 1
      (fun x h => by simpa [dotProduct, Fin.sum_univ_three] using (abs_le.mp (hx x h)).1)
      (fun x h => by simpa [dotProduct, Fin.sum_univ_three] using (abs_le.mp (hx x h)).2)
    norm_num [IP.h, dotProduct, Fin.sum_univ_three] at h
    have h' : (2 : ℝ) + 0 * 0 ≤ 1 := h
    norm_num at h'

end Rigeo
