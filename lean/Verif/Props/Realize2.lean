import Verif.Props.Realize
import Verif.Props.Shapes4

/-!
# C53, C54, C55 (disk constraints): necessary conditions for realizability
-/

namespace Rigeo

open Matrix

section Field
variable {K : Type} [Field K] [LinearOrder K] [IsStrictOrderedRing K]

/-- To show a property of all realizable moments it is enough to look at one point mass, provided the
property is closed under addition. -/
theorem _root_.Spec.Realizable.induct {n : ℕ} {S : Set (Fin n → K)}
    {P : K → (Fin n → K) → Matrix (Fin n) (Fin n) K → Prop} (h0 : P 0 0 0)
    (hadd : ∀ m f H m' f' H', P m f H → P m' f' H' → P (m + m') (f + f') (H + H'))
    (hpt : ∀ a p, 0 ≤ a → p ∈ S → P a (a • p) (a • outer p p))
    {m : K} {f : Fin n → K} {H : Matrix (Fin n) (Fin n) K} (h : Spec.Realizable S m f H) : P m f H := by
  obtain ⟨s, hs, hin, rfl, rfl, rfl⟩ := h
  induction s with
  | nil => simpa [Spec.PointMasses.mass, Spec.PointMasses.first, Spec.PointMasses.second] using h0
  | cons mp s ih =>
    have e1 : Spec.PointMasses.mass (mp :: s) = mp.1 + Spec.PointMasses.mass s := by simp [Spec.PointMasses.mass]
    have e2 : Spec.PointMasses.first (mp :: s) = mp.1 • mp.2 + Spec.PointMasses.first s := by simp [Spec.PointMasses.first]
    have e3 : Spec.PointMasses.second (mp :: s) = mp.1 • vecMulVec mp.2 mp.2 + Spec.PointMasses.second s := by
      simp [Spec.PointMasses.second]
    rw [e1, e2, e3]
    exact hadd _ _ _ _ _ _ (hpt _ _ (hs mp (by simp)) (hin mp (by simp)))
      (ih (fun x hx => hs x (by simp [hx])) (fun x hx => hin x (by simp [hx])))

theorem _root_.Spec.Realizable.psd {n : ℕ} {S : Set (Fin n → K)} {m : K} {f : Fin n → K}
    {H : Matrix (Fin n) (Fin n) K} (h : Spec.Realizable S m f H) : Spec.PSD (bordered H f f m) := by
  refine Spec.Realizable.induct (P := fun m f H => Spec.PSD (bordered H f f m)) ?_ ?_ ?_ h
  · rw [bordered_zero]; exact Spec.PSD.zero
  · intro m f H m' f' H' h1 h2
    rw [← bordered_add]; exact h1.add h2
  · intro a p ha _
    have : bordered (a • outer p p) (a • p) (a • p) a =
        a • outer (Fin.snoc (α := fun _ => K) p 1) (Fin.snoc (α := fun _ => K) p 1) := by
      rw [outer_snoc, bordered_smul]; simp
    rw [this]
    exact (Spec.PSD.outer _).smul ha

theorem _root_.Spec.Realizable.symm {n : ℕ} {S : Set (Fin n → K)} {m : K} {f : Fin n → K}
    {H : Matrix (Fin n) (Fin n) K} (h : Spec.Realizable S m f H) : Hᵀ = H :=
  (bordered_psd_block h.psd).1.1

/-- Points of a hull are convex combinations of the listed points. -/
theorem hull_weights {n : ℕ} (vs : List (Fin n → K)) (p : Fin n → K) :
    p ∈ Spec.hull vs ↔ ∃ w : Fin vs.length → K, (∀ k, 0 ≤ w k) ∧ ∑ k, w k = 1 ∧
      p = ∑ k, w k • vs.get k := by
  constructor
  · intro hp
    let C : Set (Fin n → K) := {p | ∃ w : Fin vs.length → K, (∀ k, 0 ≤ w k) ∧ ∑ k, w k = 1 ∧
      p = ∑ k, w k • vs.get k}
    have hC : Convex K C := by
      rintro x ⟨w, hw, hw1, rfl⟩ y ⟨w', hw', hw1', rfl⟩ a b ha hb hab
      refine ⟨fun k => a * w k + b * w' k, fun k => ?_, ?_, ?_⟩
      · exact add_nonneg (mul_nonneg ha (hw k)) (mul_nonneg hb (hw' k))
      · rw [Finset.sum_add_distrib, ← Finset.mul_sum, ← Finset.mul_sum, hw1, hw1', mul_one, mul_one, hab]
      · simp only [add_smul, mul_smul, Finset.sum_add_distrib, Finset.smul_sum]
    have hsub : {v | v ∈ vs} ⊆ C := by
      intro v hv
      obtain ⟨k, rfl⟩ := List.get_of_mem hv
      refine ⟨Pi.single k 1, fun j => ?_, by simp, ?_⟩
      · by_cases h : j = k
        · subst h; simp
        · simp [h]
      · rw [Finset.sum_eq_single k] <;> simp +contextual
    exact convexHull_min hsub hC hp
  · rintro ⟨w, hw, hw1, rfl⟩
    have hcv := convex_convexHull K {v | v ∈ vs}
    exact hcv.sum_mem (fun k _ => hw k) hw1 fun k _ => subset_convexHull K _ (List.get_mem vs k)

/-! ## C53 -/

/-- Jensen: the second moment of the vertices with barycentric weights dominates that of the point. -/
theorem jensen {n : ℕ} {ι : Type} [Fintype ι] (w : ι → K) (hw : ∀ k, 0 ≤ w k) (hw1 : ∑ k, w k = 1)
    (v : ι → Fin n → K) :
    Spec.PSD ((∑ k, w k • outer (v k) (v k)) - outer (∑ k, w k • v k) (∑ k, w k • v k)) := by
  refine ⟨?_, fun x => ?_⟩
  · rw [transpose_sub, outer_transpose, transpose_sum]
    congr 1
    exact Finset.sum_congr rfl fun k _ => by rw [transpose_smul, outer_transpose]
  · rw [sub_mulVec, dotProduct_sub, outer_quad, Matrix.sum_mulVec, dotProduct_sum]
    simp only [smul_mulVec, dotProduct_smul, outer_quad, smul_eq_mul]
    rw [sum_dotProduct]
    simp only [smul_dotProduct, smul_eq_mul]
    set g : ι → K := fun k => v k ⬝ᵥ x
    set A := ∑ k, w k * g k
    have h : 0 ≤ ∑ k, w k * (g k - A) ^ 2 := Finset.sum_nonneg fun k _ => mul_nonneg (hw k) (sq_nonneg _)
    have e : ∑ k, w k * (g k - A) ^ 2 = ∑ k, w k * g k ^ 2 - A ^ 2 := by
      have : ∀ k, w k * (g k - A) ^ 2 = w k * g k ^ 2 - 2 * A * (w k * g k) + A ^ 2 * w k := fun k => by ring
      simp only [this, Finset.sum_add_distrib, Finset.sum_sub_distrib, ← Finset.mul_sum, hw1]
      change _ - 2 * A * A + _ = _
      ring
    rw [e] at h
    exact h

theorem vertex_feasible {n : ℕ} (vs : List (Fin n → K)) {m : K} {f : Fin n → K} {H : Matrix (Fin n) (Fin n) K}
    (h : Spec.Realizable (Spec.hull vs) m f H) :
    ∃ ms : Fin vs.length → K, (∀ k, 0 ≤ ms k) ∧ m = ∑ k, ms k ∧ f = ∑ k, ms k • vs.get k ∧
      Spec.PSD ((∑ k, ms k • outer (vs.get k) (vs.get k)) - H) := by
  refine Spec.Realizable.induct (P := fun m f H => ∃ ms : Fin vs.length → K, (∀ k, 0 ≤ ms k) ∧ m = ∑ k, ms k ∧
    f = ∑ k, ms k • vs.get k ∧ Spec.PSD ((∑ k, ms k • outer (vs.get k) (vs.get k)) - H)) ?_ ?_ ?_ h
  · exact ⟨0, by simp, by simp, by simp, by simpa using Spec.PSD.zero⟩
  · rintro m f H m' f' H' ⟨ms, h1, rfl, rfl, h4⟩ ⟨ms', h1', rfl, rfl, h4'⟩
    refine ⟨ms + ms', fun k => add_nonneg (h1 k) (h1' k), by simp [Finset.sum_add_distrib],
      by simp [add_smul, Finset.sum_add_distrib], ?_⟩
    have := h4.add h4'
    convert this using 1
    simp only [Pi.add_apply, add_smul, Finset.sum_add_distrib]
    abel
  · intro a p ha hp
    obtain ⟨w, hw, hw1, rfl⟩ := (hull_weights vs p).mp hp
    refine ⟨fun k => a * w k, fun k => mul_nonneg ha (hw k), ?_, ?_, ?_⟩
    · rw [← Finset.mul_sum, hw1, mul_one]
    · simp only [mul_smul, Finset.smul_sum]
    · have := (jensen w hw hw1 vs.get).smul ha
      rw [smul_sub, Finset.smul_sum] at this
      simpa only [mul_smul] using this

/-- C53: every mass distribution inside the convex hull of the vertices satisfies
`moment_vertex_constraints`, for the `(4, 4)` and the `(10,)` variable (if `eps > 0`, provided that the
eigenvalues of its pseudo-inertia matrix are at least `eps`). -/
theorem C53_necessary (P : Poly K 3) (p : IP K)
    (hp : Spec.Realizable (Spec.hull P.vertices) p.mass p.h p.H) (eps : K) (heps : 0 ≤ eps)
    (hpsd : Spec.PSD (p.J - eps • (1 : Matrix (Fin 4) (Fin 4) K))) :
    Py.Holds (P.momentVertexConstraints (.mat p.J) eps) ∧
      Py.Holds (P.momentVertexConstraints (.vec p.vec) eps) := by
  obtain ⟨ms, h1, h2, h3, h4⟩ := vertex_feasible P.vertices hp
  have hH : p.Hᵀ = p.H := hp.symm
  obtain ⟨c, c', hc, hc', hcc, hc''⟩ := C19_vec p hH eps heps
  have hJ33 : p.J 3 3 = p.mass := bordered_ll _ _ _ _
  have hJi3 : ∀ i : Fin 3, p.J i.castSucc 3 = p.h i := fun i => bordered_cl _ _ _ _ i
  have hJij : (Matrix.of fun i j : Fin 3 => p.J i.castSucc j.castSucc) = p.H := by
    ext i j; exact bordered_cc _ _ _ _ i j
  have key : ∀ (x : ParamVar K) (c : Prop), c → pimMustEqualParamVar x eps = .ok (p.J, c) →
      Py.Holds (P.momentVertexConstraints x eps) := by
    intro x c hcc hx
    unfold Poly.momentVertexConstraints
    rw [hx]
    refine ⟨_, rfl, hcc, ms, h1, ?_, ?_, ?_⟩
    · rw [hJ33]; exact h2
    · intro i
      rw [hJi3, h3]
      simp
    · rw [hJij]; exact h4.2
  have hcT : c := hc''.mpr hpsd
  exact ⟨key _ _ (hcc.mp hcT) hc', key _ _ hcT hc⟩

/-- C53: whenever the constraints hold and the mass is positive, the centre of mass lies in the
polyhedron, and the second moment is bounded by that of point masses at the vertices. -/
theorem C53_com (P : Poly K 3) (J : Matrix (Fin 4) (Fin 4) K) (eps : K)
    (h : Py.Holds (P.momentVertexConstraints (.mat J) eps)) (hm : 0 < J 3 3) :
    (fun i : Fin 3 => J i.castSucc 3 / J 3 3) ∈ Spec.hull P.vertices ∧ Jᵀ = J ∧
      ∃ s : Spec.PointMasses K 3, s.Nonneg ∧ (∀ mp ∈ s, mp.2 ∈ P.vertices) ∧ s.mass = J 3 3 ∧
        (s.first = fun i : Fin 3 => J i.castSucc 3) ∧
        Spec.PSD (s.second - Matrix.of fun i j : Fin 3 => J i.castSucc j.castSucc) := by
  obtain ⟨c, hc, hcc⟩ := h
  unfold Poly.momentVertexConstraints at hc
  have heps : 0 ≤ eps := by
    by_contra hneg
    simp [pimMustEqualParamVar, hneg, bind, Except.bind] at hc
  obtain ⟨psd, h1, h2⟩ := C19_mat J eps heps
  rw [h1] at hc
  simp only [bind, Except.bind, pure, Except.pure, Except.ok.injEq] at hc
  rw [← hc] at hcc
  obtain ⟨hp, ms, hms, e1, e2, e3⟩ := hcc
  have hJ : Jᵀ = J := by
    have := (h2.mp hp).1
    rw [transpose_sub, transpose_smul, transpose_one] at this
    exact sub_left_injective this
  refine ⟨?_, hJ, ?_⟩
  · rw [hull_weights]
    refine ⟨fun k => ms k / J 3 3, fun k => div_nonneg (hms k) hm.le, ?_, ?_⟩
    · rw [← Finset.sum_div, ← e1, div_self hm.ne']
    · ext i
      rw [e2 i, Finset.sum_apply, Finset.sum_div]
      refine Finset.sum_congr rfl fun k _ => ?_
      simp only [Pi.smul_apply, smul_eq_mul]; ring
  · let s : Spec.PointMasses K 3 := List.ofFn fun k => (ms k, P.vertices.get k)
    have hsec : s.second = ∑ k, ms k • outer (P.vertices.get k) (P.vertices.get k) := by
      simp only [s, Spec.PointMasses.second, List.map_ofFn, List.sum_ofFn]; rfl
    refine ⟨s, ?_, ?_, ?_, ?_, ?_⟩
    · intro mp hmp
      obtain ⟨k, rfl⟩ := (List.mem_ofFn' _ _).mp hmp
      exact hms k
    · intro mp hmp
      obtain ⟨k, rfl⟩ := (List.mem_ofFn' _ _).mp hmp
      exact List.get_mem _ k
    · simp only [s, Spec.PointMasses.mass, List.map_ofFn, List.sum_ofFn]; exact e1.symm
    · ext i
      simp only [s, Spec.PointMasses.first, List.map_ofFn, List.sum_ofFn, e2 i, Finset.sum_apply]
      rfl
    · rw [hsec]
      refine ⟨?_, e3⟩
      rw [transpose_sub, transpose_sum]
      congr 1
      · exact Finset.sum_congr rfl fun k _ => by rw [transpose_smul, outer_transpose]
      · ext i j; exact congrFun (congrFun hJ i.castSucc) j.castSucc

example : ∃ (P : Poly ℚ 3) (p : IP ℚ), Spec.Realizable (Spec.hull P.vertices) p.mass p.h p.H ∧ p.mass = 2 := by
  refine ⟨⟨[0, ![1, 0, 0]], ⟨[]⟩⟩, ⟨2, ![1 / 2, 0, 0], outer ![1, 0, 0] ![1, 0, 0]⟩,
    ⟨[(1, 0), (1, ![1, 0, 0])], ?_, ?_, ?_, ?_, ?_⟩, rfl⟩
  · intro mp hmp; simp at hmp; rcases hmp with rfl | rfl <;> norm_num
  · intro mp hmp
    simp at hmp
    rcases hmp with rfl | rfl <;> exact subset_convexHull _ _ (by simp)
  · norm_num [Spec.PointMasses.mass]
  · ext i; fin_cases i <;> simp [Spec.PointMasses.first, IP.h]
  · simp [Spec.PointMasses.second, outer_eq_vecMulVec]

/-! ## C54 -/

theorem transformMatrixInv_snoc (R : Matrix (Fin 3) (Fin 3) K) (c p : Fin 3 → K) (t : K) :
    transformMatrixInv R c *ᵥ Fin.snoc (α := fun _ => K) p t =
      Fin.snoc (α := fun _ => K) (Rᵀ *ᵥ (p - t • c)) t := by
  rw [transformMatrixInv, transformMatrix, bordered_mulVec_snoc]
  congr 1
  · rw [neg_mulVec, mulVec_sub, sub_eq_add_neg, mulVec_smul, smul_neg]
  · simp

/-- The last column of the moments in body coordinates. -/
theorem body_last (R : Matrix (Fin 3) (Fin 3) K) (c : Fin 3 → K) (J : Matrix (Fin 4) (Fin 4) K) (k : Fin 4) :
    (transformMatrixInv R c * J * (transformMatrixInv R c)ᵀ) k (Fin.last 3) =
      Fin.snoc (α := fun _ => K)
        (Rᵀ *ᵥ ((fun i : Fin 3 => J i.castSucc (Fin.last 3)) - J (Fin.last 3) (Fin.last 3) • c))
        (J (Fin.last 3) (Fin.last 3)) k := by
  rw [← transformMatrixInv_snoc]
  have h1 : ∀ X : Matrix (Fin 4) (Fin 4) K, ∀ k, X k (Fin.last 3) = (X *ᵥ Fin.snoc (α := fun _ => K) (0 : Fin 3 → K) 1) k := by
    intro X k
    simp only [mulVec, dotProduct]
    rw [Fin.sum_univ_castSucc]
    simp only [Fin.snoc_castSucc, Fin.snoc_last, Pi.zero_apply, mul_zero, Finset.sum_const_zero, zero_add, mul_one]
  have h2 : (transformMatrixInv R c)ᵀ *ᵥ Fin.snoc (α := fun _ => K) (0 : Fin 3 → K) 1 =
      Fin.snoc (α := fun _ => K) (0 : Fin 3 → K) 1 := by
    rw [transformMatrixInv, transformMatrix, bordered_transpose, bordered_mulVec_snoc]
    simp
  have h3 : J *ᵥ Fin.snoc (α := fun _ => K) (0 : Fin 3 → K) 1 =
      Fin.snoc (α := fun _ => K) (fun i : Fin 3 => J i.castSucc (Fin.last 3)) (J (Fin.last 3) (Fin.last 3)) := by
    ext i
    rw [← h1]
    refine Fin.lastCases ?_ (fun i => ?_) i
    · rw [Fin.snoc_last]
    · rw [Fin.snoc_castSucc]
  rw [h1 (transformMatrixInv R c * J * (transformMatrixInv R c)ᵀ) k, ← mulVec_mulVec, ← mulVec_mulVec, h2, h3]

theorem transformMatrixInv_hom (R : Matrix (Fin 3) (Fin 3) K) (c p : Fin 3 → K) :
    transformMatrixInv R c *ᵥ Fin.snoc (α := fun _ => K) p 1 =
      Fin.snoc (α := fun _ => K) (Rᵀ *ᵥ (p - c)) 1 := by
  rw [transformMatrixInv, transformMatrix, bordered_mulVec_snoc]
  congr 1
  · rw [one_smul, neg_mulVec, mulVec_sub, sub_eq_add_neg]
  · simp

theorem boxVerts_eq (h : Fin 3 → K) : Box.boxVerts h 1 0 =
    [![h 0, h 1, h 2], ![h 0, h 1, -h 2], ![h 0, -h 1, h 2], ![h 0, -h 1, -h 2],
     ![-h 0, h 1, h 2], ![-h 0, h 1, -h 2], ![-h 0, -h 1, h 2], ![-h 0, -h 1, -h 2]] := by
  have e : ∀ a b c : K, (Fin.cons a (Fin.cons b (Fin.cons c Fin.elim0)) : Fin 3 → K) = ![a, b, c] := by
    intro a b c; ext i; fin_cases i <;> rfl
  simp only [Box.boxVerts, boxVertices, signCombos, List.flatMap_cons, List.flatMap_nil, List.map_cons,
    List.map_nil, List.append_nil, List.cons_append, List.nil_append, one_mulVec, add_zero, e]
  congr 1 <;> [skip; congr 1 <;> [skip; congr 1 <;> [skip; congr 1 <;> [skip; congr 1 <;> [skip; congr 1 <;> [skip; congr 1 <;> [skip; congr 1]]]]]]] <;>
    (ext i; fin_cases i <;> simp)

/-- The vertex part of the box constraints for a body at the origin. -/
def BoxFeasible (h : Fin 3 → K) (J0 : Matrix (Fin 4) (Fin 4) K) : Prop :=
  ∃ μs : Fin (Box.boxVerts h 1 0).length → K, (∀ k, 0 ≤ μs k) ∧
    let Jv := ∑ k, μs k • outer (IP.hom ((Box.boxVerts h 1 0).get k)) (IP.hom ((Box.boxVerts h 1 0).get k))
    J0 3 3 = Jv 3 3 ∧ (∀ i j : Fin 4, i < j → J0 i j = Jv i j) ∧
      ∀ i : Fin 3, J0 i.castSucc i.castSucc ≤ Jv i.castSucc i.castSucc

theorem BoxFeasible.zero (h : Fin 3 → K) : BoxFeasible h 0 :=
  ⟨0, by simp, by simp⟩

theorem BoxFeasible.add {h : Fin 3 → K} {J J' : Matrix (Fin 4) (Fin 4) K} (hJ : BoxFeasible h J)
    (hJ' : BoxFeasible h J') : BoxFeasible h (J + J') := by
  obtain ⟨μ, h1, h2, h3, h4⟩ := hJ
  obtain ⟨μ', h1', h2', h3', h4'⟩ := hJ'
  refine ⟨μ + μ', fun k => add_nonneg (h1 k) (h1' k), ?_⟩
  simp only [Pi.add_apply, add_smul, Finset.sum_add_distrib, Matrix.add_apply]
  exact ⟨by rw [h2, h2'], fun i j hij => by rw [h3 i j hij, h3' i j hij], fun i => add_le_add (h4 i) (h4' i)⟩

theorem BoxFeasible.point {h : Fin 3 → K} {y : Fin 3 → K} (hy : ∀ i, |y i| ≤ h i) {a : K} (ha : 0 ≤ a) :
    BoxFeasible h (a • outer (IP.hom y) (IP.hom y)) := by
  -- barycentric coordinates in the cube
  obtain ⟨t, ht, hyt⟩ : ∃ t : Fin 3 → K, (∀ i, |t i| ≤ 1) ∧ ∀ i, y i = t i * h i := by
    refine ⟨fun i => y i / h i, fun i => ?_, fun i => ?_⟩
    · have h0 : 0 ≤ h i := (abs_nonneg _).trans (hy i)
      rw [abs_div, abs_of_nonneg h0]
      exact div_le_one_of_le₀ (hy i) h0
    · rcases eq_or_ne (h i) 0 with h0 | h0
      · have := hy i
        rw [h0] at this
        rw [h0, mul_zero, abs_eq_zero.mp (le_antisymm this (abs_nonneg _))]
      · field_simp
  have hl : ∀ i, 0 ≤ 1 + t i := fun i => by have := (abs_le.mp (ht i)).1; linarith
  have hu : ∀ i, 0 ≤ 1 - t i := fun i => by have := (abs_le.mp (ht i)).2; linarith
  unfold BoxFeasible
  rw [boxVerts_eq]
  refine ⟨![a * ((1 + t 0) * (1 + t 1) * (1 + t 2)) / 8, a * ((1 + t 0) * (1 + t 1) * (1 - t 2)) / 8,
    a * ((1 + t 0) * (1 - t 1) * (1 + t 2)) / 8, a * ((1 + t 0) * (1 - t 1) * (1 - t 2)) / 8,
    a * ((1 - t 0) * (1 + t 1) * (1 + t 2)) / 8, a * ((1 - t 0) * (1 + t 1) * (1 - t 2)) / 8,
    a * ((1 - t 0) * (1 - t 1) * (1 + t 2)) / 8, a * ((1 - t 0) * (1 - t 1) * (1 - t 2)) / 8], ?_, ?_⟩
  · have h0 := hl 0; have h1 := hl 1; have h2 := hl 2
    have g0 := hu 0; have g1 := hu 1; have g2 := hu 2
    intro k
    change Fin 8 at k
    fin_cases k <;> (simp; positivity)
  · intro Jv
    have hh3 : ∀ v : Fin 3 → K, IP.hom v 3 = 1 := fun v => rfl
    have hh0 : ∀ v : Fin 3 → K, IP.hom v 0 = v 0 := fun v => rfl
    have hh1 : ∀ v : Fin 3 → K, IP.hom v 1 = v 1 := fun v => rfl
    have hh2 : ∀ v : Fin 3 → K, IP.hom v 2 = v 2 := fun v => rfl
    have hJv : ∀ i j, Jv i j = a * ((1 + t 0) * (1 + t 1) * (1 + t 2)) / 8 * (IP.hom ![h 0, h 1, h 2] i * IP.hom ![h 0, h 1, h 2] j) +
        a * ((1 + t 0) * (1 + t 1) * (1 - t 2)) / 8 * (IP.hom ![h 0, h 1, -h 2] i * IP.hom ![h 0, h 1, -h 2] j) +
        a * ((1 + t 0) * (1 - t 1) * (1 + t 2)) / 8 * (IP.hom ![h 0, -h 1, h 2] i * IP.hom ![h 0, -h 1, h 2] j) +
        a * ((1 + t 0) * (1 - t 1) * (1 - t 2)) / 8 * (IP.hom ![h 0, -h 1, -h 2] i * IP.hom ![h 0, -h 1, -h 2] j) +
        a * ((1 - t 0) * (1 + t 1) * (1 + t 2)) / 8 * (IP.hom ![-h 0, h 1, h 2] i * IP.hom ![-h 0, h 1, h 2] j) +
        a * ((1 - t 0) * (1 + t 1) * (1 - t 2)) / 8 * (IP.hom ![-h 0, h 1, -h 2] i * IP.hom ![-h 0, h 1, -h 2] j) +
        a * ((1 - t 0) * (1 - t 1) * (1 + t 2)) / 8 * (IP.hom ![-h 0, -h 1, h 2] i * IP.hom ![-h 0, -h 1, h 2] j) +
        a * ((1 - t 0) * (1 - t 1) * (1 - t 2)) / 8 * (IP.hom ![-h 0, -h 1, -h 2] i * IP.hom ![-h 0, -h 1, -h 2] j) := by
      intro i j
      exact (congrFun (congrFun (Fin.sum_univ_eight (M := Matrix (Fin 4) (Fin 4) K) _) i) j)
    have hsq : ∀ i, a * (y i * y i) ≤ a * (h i * h i) := fun i => by
      refine mul_le_mul_of_nonneg_left ?_ ha
      have := mul_self_le_mul_self (abs_nonneg _) (hy i)
      rwa [abs_mul_abs_self] at this
    refine ⟨?_, ?_, ?_⟩
    · rw [hJv]
      simp only [hh3, Matrix.smul_apply, outer_apply, smul_eq_mul]
      ring
    · intro i j hij
      rw [hJv]
      fin_cases i <;> fin_cases j <;> first
        | exact absurd hij (by decide)
        | (simp only [Fin.mk_one, Fin.zero_eta, Fin.reduceFinMk, Fin.isValue, hh3, hh0, hh1, hh2, Matrix.smul_apply, outer_apply, smul_eq_mul, hyt,
            Matrix.cons_val, Matrix.cons_val_zero, Matrix.cons_val_one]
           ring)
    · intro i
      rw [hJv]
      have := hsq i
      fin_cases i
      · change a * (y 0 * y 0) ≤ _
        refine (hsq 0).trans (le_of_eq ?_)
        change a * (h 0 * h 0) = a * ((1 + t 0) * (1 + t 1) * (1 + t 2)) / 8 * (h 0 * h 0) + a * ((1 + t 0) * (1 + t 1) * (1 - t 2)) / 8 * (h 0 * h 0) +
          a * ((1 + t 0) * (1 - t 1) * (1 + t 2)) / 8 * (h 0 * h 0) + a * ((1 + t 0) * (1 - t 1) * (1 - t 2)) / 8 * (h 0 * h 0) +
          a * ((1 - t 0) * (1 + t 1) * (1 + t 2)) / 8 * (-h 0 * -h 0) + a * ((1 - t 0) * (1 + t 1) * (1 - t 2)) / 8 * (-h 0 * -h 0) +
          a * ((1 - t 0) * (1 - t 1) * (1 + t 2)) / 8 * (-h 0 * -h 0) + a * ((1 - t 0) * (1 - t 1) * (1 - t 2)) / 8 * (-h 0 * -h 0)
        ring
      · change a * (y 1 * y 1) ≤ _
        refine (hsq 1).trans (le_of_eq ?_)
        change a * (h 1 * h 1) = a * ((1 + t 0) * (1 + t 1) * (1 + t 2)) / 8 * (h 1 * h 1) + a * ((1 + t 0) * (1 + t 1) * (1 - t 2)) / 8 * (h 1 * h 1) +
          a * ((1 + t 0) * (1 - t 1) * (1 + t 2)) / 8 * (-h 1 * -h 1) + a * ((1 + t 0) * (1 - t 1) * (1 - t 2)) / 8 * (-h 1 * -h 1) +
          a * ((1 - t 0) * (1 + t 1) * (1 + t 2)) / 8 * (h 1 * h 1) + a * ((1 - t 0) * (1 + t 1) * (1 - t 2)) / 8 * (h 1 * h 1) +
          a * ((1 - t 0) * (1 - t 1) * (1 + t 2)) / 8 * (-h 1 * -h 1) + a * ((1 - t 0) * (1 - t 1) * (1 - t 2)) / 8 * (-h 1 * -h 1)
        ring
      · change a * (y 2 * y 2) ≤ _
        refine (hsq 2).trans (le_of_eq ?_)
        change a * (h 2 * h 2) = a * ((1 + t 0) * (1 + t 1) * (1 + t 2)) / 8 * (h 2 * h 2) + a * ((1 + t 0) * (1 + t 1) * (1 - t 2)) / 8 * (-h 2 * -h 2) +
          a * ((1 + t 0) * (1 - t 1) * (1 + t 2)) / 8 * (h 2 * h 2) + a * ((1 + t 0) * (1 - t 1) * (1 - t 2)) / 8 * (-h 2 * -h 2) +
          a * ((1 - t 0) * (1 + t 1) * (1 + t 2)) / 8 * (h 2 * h 2) + a * ((1 - t 0) * (1 + t 1) * (1 - t 2)) / 8 * (-h 2 * -h 2) +
          a * ((1 - t 0) * (1 - t 1) * (1 + t 2)) / 8 * (h 2 * h 2) + a * ((1 - t 0) * (1 - t 1) * (1 - t 2)) / 8 * (-h 2 * -h 2)
        ring

/-- Moments in body coordinates. -/
theorem pm_body (R : Matrix (Fin 3) (Fin 3) K) (c : Fin 3 → K) (a : K) (p : Fin 3 → K) :
    transformMatrixInv R c * bordered (a • outer p p) (a • p) (a • p) a * (transformMatrixInv R c)ᵀ =
      a • outer (IP.hom (Rᵀ *ᵥ (p - c))) (IP.hom (Rᵀ *ᵥ (p - c))) := by
  have : bordered (a • outer p p) (a • p) (a • p) a = a • outer (IP.hom p) (IP.hom p) := by
    rw [IP.hom, outer_snoc, bordered_smul]; simp
  rw [this, Matrix.mul_smul, Matrix.smul_mul, mul_outer_mul, IP.hom, transformMatrixInv_hom]
  rfl

theorem box_feasible (h : Fin 3 → K) {R : Matrix (Fin 3) (Fin 3) K} (hR : Spec.Orthogonal R) (c : Fin 3 → K)
    {m : K} {f : Fin 3 → K} {H : Matrix (Fin 3) (Fin 3) K} (hreal : Spec.Realizable (Spec.box h R c) m f H) :
    BoxFeasible h (transformMatrixInv R c * bordered H f f m * (transformMatrixInv R c)ᵀ) := by
  refine Spec.Realizable.induct (P := fun m f H =>
    BoxFeasible h (transformMatrixInv R c * bordered H f f m * (transformMatrixInv R c)ᵀ)) ?_ ?_ ?_ hreal
  · rw [bordered_zero, Matrix.mul_zero, Matrix.zero_mul]; exact BoxFeasible.zero h
  · intro m f H m' f' H' h1 h2
    rw [← bordered_add, Matrix.mul_add, Matrix.add_mul]
    exact h1.add h2
  · intro a p ha hp
    rw [pm_body]
    exact BoxFeasible.point ((Spec_box_iff hR _ _ _).mp hp) ha

/-- C54: every mass distribution inside a box satisfies `moment_custom_vertex_constraints`, for the
`(4, 4)` and the `(10,)` variable (if `eps > 0`, provided that the eigenvalues of its pseudo-inertia
matrix are at least `eps`). -/
theorem C54_necessary (b : Box K) (hR : Spec.Orthogonal b.rotation) (p : IP K)
    (hp : Spec.Realizable (Spec.box b.halfExtents b.rotation b.center) p.mass p.h p.H) (eps : K)
    (heps : 0 ≤ eps) (hpsd : Spec.PSD (p.J - eps • (1 : Matrix (Fin 4) (Fin 4) K))) :
    Py.Holds (b.momentCustomVertexConstraints (.mat p.J) eps) ∧
      Py.Holds (b.momentCustomVertexConstraints (.vec p.vec) eps) := by
  have hf : BoxFeasible b.halfExtents _ := box_feasible b.halfExtents hR b.center hp
  obtain ⟨c, c', hc, hc', hcc, hc''⟩ := C19_vec p hp.symm eps heps
  have key : ∀ (x : ParamVar K) (c : Prop), c → pimMustEqualParamVar x eps = .ok (p.J, c) →
      Py.Holds (b.momentCustomVertexConstraints x eps) := by
    intro x c hcc hx
    unfold Box.momentCustomVertexConstraints
    rw [hx]
    exact ⟨_, rfl, hcc, hf⟩
  have hcT : c := hc''.mpr hpsd
  exact ⟨key _ _ (hcc.mp hcT) hc', key _ _ hcT hc⟩

/-- C54: whenever the constraints hold and the mass is positive, the centre of mass lies in the box. -/
theorem C54_com (b : Box K) (hR : Spec.Orthogonal b.rotation) (hh : ∀ i, 0 ≤ b.halfExtents i)
    (J : Matrix (Fin 4) (Fin 4) K) (eps : K)
    (h : Py.Holds (b.momentCustomVertexConstraints (.mat J) eps)) (hm : 0 < J 3 3) :
    (fun i : Fin 3 => J i.castSucc 3 / J 3 3) ∈ Spec.box b.halfExtents b.rotation b.center := by
  obtain ⟨c, hc, hcc⟩ := h
  unfold Box.momentCustomVertexConstraints at hc
  have heps : 0 ≤ eps := by
    by_contra hneg
    simp [pimMustEqualParamVar, hneg, bind, Except.bind] at hc
  obtain ⟨psd, h1, h2⟩ := C19_mat J eps heps
  rw [h1] at hc
  simp only [bind, Except.bind, pure, Except.pure, Except.ok.injEq] at hc
  rw [← hc] at hcc
  obtain ⟨hp, μ, hμ, e1, e2, -⟩ := hcc
  set f : Fin 3 → K := fun i => J i.castSucc (Fin.last 3) with hf
  set m := J (Fin.last 3) (Fin.last 3) with hmdef
  have e1' : m = ∑ k, μ k := by
    have := e1
    rw [show (3 : Fin 4) = Fin.last 3 from rfl, body_last, Fin.snoc_last] at this
    rw [hmdef, this, Matrix.sum_apply]
    refine Finset.sum_congr rfl fun k _ => ?_
    change μ k * (1 * 1) = μ k
    ring
  have e2' : ∀ i, (b.rotationᵀ *ᵥ (f - m • b.center)) i =
      ∑ k, μ k * (Box.boxVerts b.halfExtents 1 0).get k i := by
    intro i
    have := e2 i.castSucc (Fin.last 3) (Fin.castSucc_lt_last i)
    rw [body_last, Fin.snoc_castSucc] at this
    rw [hf, hmdef, this, Matrix.sum_apply]
    refine Finset.sum_congr rfl fun k _ => ?_
    simp only [Matrix.smul_apply, outer_apply, IP.hom, Fin.snoc_castSucc, Fin.snoc_last, mul_one, smul_eq_mul]
  have hv : ∀ k i, |(Box.boxVerts b.halfExtents 1 0).get k i| ≤ b.halfExtents i := by
    intro k i
    have hm := List.get_mem (Box.boxVerts b.halfExtents 1 0) k
    simp only [Box.boxVerts, one_mulVec, add_zero, List.map_id', C08_mem] at hm
    simp only [Box.boxVerts, one_mulVec, add_zero, List.map_id']
    rcases hm i with h | h <;> rw [h] <;> simp [abs_of_nonneg (hh i)]
  rw [Spec_box_iff hR]
  intro i
  have hcm : (fun i : Fin 3 => J i.castSucc 3 / J 3 3) - b.center = m⁻¹ • (f - m • b.center) := by
    ext j
    have hm' : m ≠ 0 := hm.ne'
    change f j / m - b.center j = m⁻¹ * (f j - m * b.center j)
    field_simp
  have hm0 : 0 < m := hm
  rw [hcm, mulVec_smul, Pi.smul_apply, smul_eq_mul, abs_mul, abs_of_pos (inv_pos.mpr hm0),
    inv_mul_le_iff₀ hm0, e2']
  calc |∑ k, μ k * (Box.boxVerts b.halfExtents 1 0).get k i|
      ≤ ∑ k, |μ k * (Box.boxVerts b.halfExtents 1 0).get k i| := Finset.abs_sum_le_sum_abs _ _
    _ ≤ ∑ k, μ k * b.halfExtents i := by
        refine Finset.sum_le_sum fun k _ => ?_
        rw [abs_mul, abs_of_nonneg (hμ k)]
        exact mul_le_mul_of_nonneg_left (hv k i) (hμ k)
    _ = m * b.halfExtents i := by rw [← Finset.sum_mul, ← e1']

example : ∃ (b : Box ℚ) (p : IP ℚ), Spec.Orthogonal b.rotation ∧ (∀ i, 0 ≤ b.halfExtents i) ∧ p.mass = 2 ∧
    Spec.Realizable (Spec.box b.halfExtents b.rotation b.center) p.mass p.h p.H := by
  refine ⟨⟨![1, 2, 0], 1, 0⟩, ⟨2, ![1 / 2, 0, 0], outer ![1, 0, 0] ![1, 0, 0]⟩, Spec.Orthogonal.one, ?_, rfl,
    ⟨[(1, 0), (1, ![1, 0, 0])], ?_, ?_, ?_, ?_, ?_⟩⟩
  · intro i; fin_cases i <;> norm_num
  · intro mp hmp; simp at hmp; rcases hmp with rfl | rfl <;> norm_num
  · intro mp hmp
    simp at hmp
    rcases hmp with rfl | rfl
    · exact ⟨0, fun i => by fin_cases i <;> norm_num, by simp [Spec.rigid]⟩
    · exact ⟨![1, 0, 0], fun i => by fin_cases i <;> norm_num, by simp [Spec.rigid]⟩
  · norm_num [Spec.PointMasses.mass]
  · ext i; fin_cases i <;> simp [Spec.PointMasses.first, IP.h]
  · simp [Spec.PointMasses.second, outer_eq_vecMulVec]

end Field

/-- The quadratic forms of the axes in body coordinates are the diagonal of `T J Tᵀ`. -/
theorem body_diag (R : Matrix (Fin 3) (Fin 3) ℝ) (c : Fin 3 → ℝ) (J : Matrix (Fin 4) (Fin 4) ℝ) (i : Fin 3) :
    (transformMatrixInv R c * J * (transformMatrixInv R c)ᵀ) i.castSucc i.castSucc =
      shifted (colv R i) c ⬝ᵥ (J *ᵥ shifted (colv R i) c) := by
  have hrow : (transformMatrixInv R c) i.castSucc = shifted (colv R i) c := by
    ext k
    unfold transformMatrixInv transformMatrix shifted
    refine Fin.lastCases ?_ (fun k => ?_) k
    · rw [bordered_cl, Fin.snoc_last, neg_mulVec]; rfl
    · rw [bordered_cc, Fin.snoc_castSucc]; rfl
  rw [← hrow, Matrix.mul_assoc, Matrix.mul_apply]
  rfl

theorem trace_body (R : Matrix (Fin 3) (Fin 3) ℝ) (d c : Fin 3 → ℝ) {J : Matrix (Fin 4) (Fin 4) ℝ}
    (hJ : Spec.PSD J) :
    (qMatrix (R * Matrix.diagonal d * Rᵀ) c * J).trace =
      (transformMatrixInv R c * J * (transformMatrixInv R c)ᵀ) (Fin.last 3) (Fin.last 3) -
        ∑ i : Fin 3, d i * (transformMatrixInv R c * J * (transformMatrixInv R c)ᵀ) i.castSucc i.castSucc := by
  obtain ⟨u, rfl⟩ := hJ.exists_outer
  simp only [Matrix.mul_sum, Matrix.sum_mul, Matrix.trace_sum, Matrix.sum_apply, Finset.mul_sum]
  rw [Finset.sum_comm, ← Finset.sum_sub_distrib]
  refine Finset.sum_congr rfl fun k _ => ?_
  obtain ⟨y, t, hyt⟩ : ∃ (y : Fin 3 → ℝ) (t : ℝ), u k = Fin.snoc (α := fun _ => ℝ) y t :=
    ⟨Fin.init (α := fun _ => ℝ) (u k), u k (Fin.last 3), (Fin.snoc_init_self _).symm⟩
  rw [hyt, trace_mul_outer, qMatrix_quad _ (conj_diag_transpose R d), quad_diag, mul_outer_mul,
    transformMatrixInv_snoc]
  simp only [outer_apply, Fin.snoc_last, Fin.snoc_castSucc]
  congr 1
  · ring
  · exact Finset.sum_congr rfl fun i _ => by ring

/-- C54: parameters that satisfy the box constraints are realizable on the bounding ellipsoid `Box.mbe()`. -/
theorem C54_mbe (b : Box ℝ) (hR : Spec.Orthogonal b.rotation) (hh : ∀ i, 0 ≤ b.halfExtents i)
    (J : Matrix (Fin 4) (Fin 4) ℝ) (eps : ℝ)
    (h : Py.Holds (b.momentCustomVertexConstraints (.mat J) eps)) :
    ∃ e, b.mbe = .ok e ∧ Spec.Realizable (Spec.ellipsoid e.halfExtents e.rotation e.center) (J 3 3)
      (fun i => J i.castSucc 3) (Matrix.of fun i j => J i.castSucc j.castSucc) := by
  obtain ⟨c, hc, hcc⟩ := h
  unfold Box.momentCustomVertexConstraints at hc
  have heps : 0 ≤ eps := by
    by_contra hneg
    simp [pimMustEqualParamVar, hneg, bind, Except.bind] at hc
  obtain ⟨psd, h1, h2⟩ := C19_mat J eps heps
  rw [h1] at hc
  simp only [bind, Except.bind, pure, Except.pure, Except.ok.injEq] at hc
  rw [← hc] at hcc
  obtain ⟨hp, μ, hμ, e1, -, e3⟩ := hcc
  have hJ := psd_of_eps heps (h2.mp hp)
  have hblk : bordered (Matrix.of fun i j : Fin 3 => J i.castSucc j.castSucc) (fun i : Fin 3 => J i.castSucc 3)
        (fun i : Fin 3 => J i.castSucc 3) (J 3 3) = J := by
    conv_rhs => rw [← bordered_self J]
    rw [bordered_inj]
    refine ⟨rfl, rfl, ?_, rfl⟩
    ext j; exact (congrFun (congrFun hJ.1 j.castSucc) (Fin.last _)).symm
  refine ⟨_, Box.mbe_false b hh, ?_⟩
  rw [realizable_ellipsoid_iff hR, hblk]
  set X := transformMatrixInv b.rotation b.center * J * (transformMatrixInv b.rotation b.center)ᵀ with hX
  have hm : X 3 3 = ∑ k, μ k := by
    rw [e1, Matrix.sum_apply]
    refine Finset.sum_congr rfl fun k _ => ?_
    change μ k * (1 * 1) = μ k
    ring
  have hd : ∀ i : Fin 3, X i.castSucc i.castSucc ≤ X 3 3 * b.halfExtents i ^ 2 := by
    intro i
    refine (e3 i).trans (le_of_eq ?_)
    rw [hm, Matrix.sum_apply, Finset.sum_mul]
    refine Finset.sum_congr rfl fun k _ => ?_
    simp only [Matrix.smul_apply, outer_apply, IP.hom, Fin.snoc_castSucc, smul_eq_mul]
    have hmem := List.get_mem (Box.boxVerts b.halfExtents 1 0) k
    simp only [Box.boxVerts, one_mulVec, add_zero, List.map_id', C08_mem] at hmem
    simp only [Box.boxVerts, one_mulVec, add_zero, List.map_id']
    rcases hmem i with h | h <;> rw [h] <;> ring
  have hXpsd : Spec.PSD X := hJ.congr _
  have hm0 : 0 ≤ X 3 3 := hXpsd.diag_nonneg 3
  refine ⟨hJ, ?_, fun i hi => ?_⟩
  · rw [trace_body _ _ _ hJ, sub_nonneg]
    have key : ∀ i : Fin 3, (1 / (b.halfExtents i * Real.sqrt 3)) ^ 2 * X i.castSucc i.castSucc ≤ X 3 3 / 3 := by
      intro i
      rcases eq_or_ne (b.halfExtents i) 0 with h0 | h0
      · rw [h0]; simp; positivity
      · have hs : Real.sqrt 3 ^ 2 = 3 := Real.sq_sqrt (by norm_num)
        have e : (1 / (b.halfExtents i * Real.sqrt 3)) ^ 2 = 1 / (3 * b.halfExtents i ^ 2) := by
          rw [div_pow, mul_pow, hs]; ring
        have hpos : 0 < b.halfExtents i ^ 2 := by positivity
        rw [e, one_div, inv_mul_le_iff₀ (by positivity)]
        have := hd i
        linarith
    calc _ ≤ ∑ _i : Fin 3, X 3 3 / 3 := Finset.sum_le_sum fun i _ => key i
      _ = X 3 3 := by rw [Finset.sum_const]; simp; ring
  · have h0 : b.halfExtents i = 0 := by
      have h3 : Real.sqrt 3 ≠ 0 := by positivity
      exact (mul_eq_zero.mp hi).resolve_right h3
    rw [← body_diag]
    refine le_antisymm ?_ (hXpsd.diag_nonneg i.castSucc)
    have := hd i
    rw [h0] at this
    simpa using this

end Rigeo
