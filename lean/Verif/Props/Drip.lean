import Verif.Model.Drip
import Verif.Props.Convergence
import Verif.Props.CylinderExact
import Verif.Props.Tightness

/-!
# The experiment scripts (C97)
-/

namespace Spec

/-- What a solver returns with status `optimal` for a maximization problem: the supremum of the values of the objective,
up to its tolerance. -/
def Solves (tol : ℝ) (solve : Set ℝ → Rigeo.Py ℝ) : Prop :=
  ∀ S v, solve S = .ok v → ∃ s, IsLUB S s ∧ |v - s| ≤ tol

/-- The solver succeeds on every feasible and bounded problem. -/
def Complete (solve : Set ℝ → Rigeo.Py ℝ) : Prop := ∀ S : Set ℝ, S.Nonempty → BddAbove S → ∃ v, solve S = .ok v

/-- The quadratic function `[p, 1]ᵀ D [p, 1]` of a point. -/
def quadratic (D : Matrix (Fin 4) (Fin 4) ℝ) (p : Fin 3 → ℝ) : ℝ :=
  ∑ i : Fin 4, ∑ j : Fin 4, D i j * Fin.snoc (α := fun _ => ℝ) p 1 i * Fin.snoc (α := fun _ => ℝ) p 1 j

end Spec

namespace Rigeo

open Matrix MvPolynomial

/-- The values of the objective over matrices of mass one that satisfy `c`. -/
def dripSet (c : Matrix (Fin 4) (Fin 4) ℝ → Prop) (D : Matrix (Fin 4) (Fin 4) ℝ) : Set ℝ :=
  {t | ∃ J : Matrix (Fin 4) (Fin 4) ℝ, cvxPsdVar J ∧ J 3 3 = 1 ∧ c J ∧ t = (D * J).trace}

theorem dripSet_mono {c c' : Matrix (Fin 4) (Fin 4) ℝ → Prop} (h : ∀ J, Jᵀ = J → J 3 3 = 1 → c J → c' J)
    (D : Matrix (Fin 4) (Fin 4) ℝ) : dripSet c D ⊆ dripSet c' D := by
  rintro t ⟨J, h1, h2, h3, rfl⟩
  exact ⟨J, h1, h2, h J h1.1 h2 h3, rfl⟩

theorem trace_mul_outer_hom (D : Matrix (Fin 4) (Fin 4) ℝ) (p : Fin 3 → ℝ) :
    (D * outer (IP.hom p) (IP.hom p)).trace = Spec.quadratic D p := by
  rw [trace_mul_outer]
  simp only [dotProduct, mulVec, Finset.mul_sum, Spec.quadratic, IP.hom]
  refine Finset.sum_congr rfl fun i _ => Finset.sum_congr rfl fun j _ => ?_
  ring

theorem outer_hom_last (p : Fin 3 → ℝ) : outer (IP.hom p) (IP.hom p) 3 3 = 1 := by
  have : IP.hom p (Fin.last 3) = 1 := Fin.snoc_last _ _
  change IP.hom p (Fin.last 3) * IP.hom p (Fin.last 3) = 1
  rw [this, one_mul]

theorem psd_outer_hom (p : Fin 3 → ℝ) : cvxPsdVar (outer (IP.hom p) (IP.hom p)) := by
  have : Spec.PSD (outer (IP.hom p) (IP.hom p)) := by
    refine ⟨by ext i j; simp [outer_apply, mul_comm], fun v => ?_⟩
    have : v ⬝ᵥ outer (IP.hom p) (IP.hom p) *ᵥ v = (v ⬝ᵥ IP.hom p) ^ 2 := by
      rw [sq]
      simp only [dotProduct, mulVec, outer_apply, Finset.mul_sum, Finset.sum_mul]
      rw [Finset.sum_comm]
      refine Finset.sum_congr rfl fun i _ => Finset.sum_congr rfl fun j _ => ?_
      ring
    rw [this]; positivity
  exact this

/-- Symmetric matrices of mass one are those of inertial parameters. -/
theorem exists_ip_one {J : Matrix (Fin 4) (Fin 4) ℝ} (hJ : Jᵀ = J) (hm : J 3 3 = 1) : ∃ p : IP ℝ, p.J = J ∧ p.mass = 1 ∧
    p.Hᵀ = p.H := by
  refine ⟨⟨1, fun i => J i.castSucc 3, Matrix.of fun i j => J i.castSucc j.castSucc⟩, ?_, rfl, ?_⟩
  · refine Eq.trans ?_ (bordered_self J)
    unfold IP.J
    rw [bordered_inj]
    refine ⟨rfl, ?_, ?_, ?_⟩
    · ext i; simp [IP.h]
    · ext i; simp [IP.h]; exact (congrFun (congrFun hJ (Fin.last 3)) i.castSucc)
    · exact hm.symm
  · ext i j
    exact congrFun (congrFun hJ i.castSucc) j.castSucc

/-- Constraints that hold exactly for the realizable parameters: the optimal value is the maximum of a quadratic function
on the set. -/
theorem upperBounds_real {S : Set (Fin 3 → ℝ)} (D : Matrix (Fin 4) (Fin 4) ℝ) :
    upperBounds (dripSet (RealJ S) D) = upperBounds (Spec.quadratic D '' S) := by
  ext u
  constructor
  · rintro h _ ⟨p, hp, rfl⟩
    refine h ⟨outer (IP.hom p) (IP.hom p), psd_outer_hom p, outer_hom_last p, ?_, (trace_mul_outer_hom D p).symm⟩
    have := RealJ.point (zero_le_one (α := ℝ)) hp
    rwa [one_smul] at this
  · rintro h _ ⟨J, h1, h2, h3, rfl⟩
    have hb := Spec.Realizable.induct (P := fun m f H => (D * bordered H f f m).trace ≤ u * m) ?_ ?_ ?_ h3
    · have e : (fun i : Fin 3 => J i.castSucc 3) = fun i => J (Fin.last 3) i.castSucc := by
        ext i
        exact congrFun (congrFun h1.1 (Fin.last 3)) i.castSucc
      have e2 : bordered (Matrix.of fun i j : Fin 3 => J i.castSucc j.castSucc) (fun i : Fin 3 => J i.castSucc 3)
          (fun i : Fin 3 => J i.castSucc 3) (J 3 3) = J := by
        refine Eq.trans ?_ (bordered_self J)
        rw [← e]
        rfl
      rw [e2, h2, mul_one] at hb
      exact hb
    · simp [bordered_zero]
    · intro m f H m' f' H' h1 h2
      rw [← bordered_add, Matrix.mul_add, trace_add, mul_add]
      exact add_le_add h1 h2
    · intro a p ha hp
      have e : bordered (outer p p) p p 1 = outer (IP.hom p) (IP.hom p) := by
        rw [IP.hom, outer_snoc]; simp
      have e' : bordered (a • outer p p) (a • p) (a • p) a = a • outer (IP.hom p) (IP.hom p) := by
        rw [← e, bordered_smul, mul_one]
      rw [e', Matrix.mul_smul, trace_smul, smul_eq_mul, mul_comm u, trace_mul_outer_hom]
      exact mul_le_mul_of_nonneg_left (h ⟨p, hp, rfl⟩) ha

theorem quadratic_max {S : Set (Fin 3 → ℝ)} (hS : IsCompact S) (hne : S.Nonempty) (D : Matrix (Fin 4) (Fin 4) ℝ) :
    ∃ s, IsGreatest (Spec.quadratic D '' S) s := by
  refine (hS.image ?_).exists_isGreatest (hne.image _)
  unfold Spec.quadratic
  refine continuous_finsetSum _ fun i _ => continuous_finsetSum _ fun j _ => ?_
  have hc : ∀ i : Fin 4, Continuous fun p : Fin 3 → ℝ => (Fin.snoc (α := fun _ => ℝ) p 1 : Fin 4 → ℝ) i := by
    intro i
    refine Fin.lastCases ?_ (fun i => ?_) i
    · simp only [Fin.snoc_last]; exact continuous_const
    · simpa using continuous_apply i
  exact (continuous_const.mul (hc i)).mul (hc j)

/-! ### Bounds at order two -/

/-- The entries of a positive semidefinite matrix are at most its trace. -/
theorem abs_le_trace {n : ℕ} {X : Matrix (Fin n) (Fin n) ℝ} (h : Spec.PSD X) (i j : Fin n) : |X i j| ≤ X.trace := by
  have hs : X j i = X i j := congrFun (congrFun h.1 i) j
  have hd : ∀ k, 0 ≤ X k k := fun k => by
    have := h.2 (Pi.single k 1)
    simpa using this
  have hle : ∀ k, X k k ≤ X.trace := fun k =>
    Finset.single_le_sum (f := fun k => X k k) (fun k _ => hd k) (Finset.mem_univ k)
  by_cases hij : i = j
  · subst hij
    rw [abs_of_nonneg (hd i)]; exact hle i
  have e : ∀ s : ℝ, (Pi.single i 1 + s • Pi.single j 1 : Fin n → ℝ) ⬝ᵥ X *ᵥ (Pi.single i 1 + s • Pi.single j 1) =
      X i i + s * X i j + s * X j i + s ^ 2 * X j j := by
    intro s
    simp only [mulVec_add, mulVec_smul, dotProduct_add, add_dotProduct, smul_dotProduct, dotProduct_smul, mulVec_single_one,
      single_one_dotProduct, col_apply, smul_eq_mul]
    ring
  have h1 := h.2 (Pi.single i 1 + (1 : ℝ) • Pi.single j 1)
  have h2 := h.2 (Pi.single i 1 + (-1 : ℝ) • Pi.single j 1)
  rw [e] at h1 h2
  have h3 := hle i
  have h4 := hle j
  rw [abs_le]
  constructor <;> linarith

theorem trace_mul_le {n : ℕ} {X : Matrix (Fin n) (Fin n) ℝ} (h : Spec.PSD X) (D : Matrix (Fin n) (Fin n) ℝ) :
    (D * X).trace ≤ (∑ i, ∑ j, |D i j|) * X.trace := by
  simp only [trace, diag_apply, mul_apply, Finset.sum_mul]
  refine Finset.sum_le_sum fun i _ => Finset.sum_le_sum fun j _ => ?_
  have := abs_le_trace h j i
  calc D i j * X j i ≤ |D i j| * |X j i| := by rw [← abs_mul]; exact le_abs_self _
    _ ≤ _ := mul_le_mul_of_nonneg_left this (abs_nonneg _)

/-- If the second moments in some frame are bounded, so are the objective values. -/
theorem dripSet_bdd {c : Matrix (Fin 4) (Fin 4) ℝ → Prop} {R : Matrix (Fin 3) (Fin 3) ℝ} (hR : Spec.Orthogonal R)
    (t : Fin 3 → ℝ) (B : Fin 3 → ℝ)
    (h : ∀ J, cvxPsdVar J → J 3 3 = 1 → c J → ∀ i : Fin 3,
      (transformMatrixInv R t * J * (transformMatrixInv R t)ᵀ) i.castSucc i.castSucc ≤ B i)
    (D : Matrix (Fin 4) (Fin 4) ℝ) : BddAbove (dripSet c D) := by
  set T := transformMatrix R t with hT
  set Ti := transformMatrixInv R t with hTi
  have hTT : T * Ti = 1 := (C06_transformMatrixInv R t hR).2
  refine ⟨(∑ i, ∑ j, |(Tᵀ * D * T) i j|) * (∑ i, B i + 1), ?_⟩
  rintro _ ⟨J, h1, h2, h3, rfl⟩
  have hX : Spec.PSD (Ti * J * Tiᵀ) := Spec.PSD.congr (show Spec.PSD J from h1) Ti
  have e : (D * J).trace = ((Tᵀ * D * T) * (Ti * J * Tiᵀ)).trace := by
    have : J = T * (Ti * J * Tiᵀ) * Tᵀ := by
      calc J = (T * Ti) * J * (T * Ti)ᵀ := by rw [hTT, transpose_one, Matrix.one_mul, Matrix.mul_one]
        _ = _ := by rw [transpose_mul]; simp only [Matrix.mul_assoc]
    conv_lhs => rw [this]
    rw [← Matrix.mul_assoc, trace_mul_comm]
    simp only [Matrix.mul_assoc]
  rw [e]
  refine (trace_mul_le hX _).trans (mul_le_mul_of_nonneg_left ?_ (Finset.sum_nonneg fun i _ =>
    Finset.sum_nonneg fun j _ => abs_nonneg _))
  have hlast : (Ti * J * Tiᵀ) (Fin.last 3) (Fin.last 3) = 1 := by
    have hrow : Ti (Fin.last 3) = Pi.single (Fin.last 3) 1 := by
      funext k
      refine Fin.lastCases ?_ (fun j => ?_) k
      · rw [hTi, transformMatrixInv, transformMatrix, bordered_ll]; simp
      · rw [hTi, transformMatrixInv, transformMatrix, bordered_lc, Pi.single_eq_of_ne (Fin.castSucc_ne_last j)]; rfl
    simp only [mul_apply, transpose_apply, hrow, Pi.single_apply]
    simpa using h2
  simp only [trace, diag_apply, Fin.sum_univ_castSucc (n := 3), hlast]
  have := h J h1 h2 h3
  have h' : ∑ i : Fin 3, (Ti * J * Tiᵀ) i.castSucc i.castSucc ≤ ∑ i, B i := Finset.sum_le_sum fun i _ => this i
  simp only [Fin.sum_univ_three] at h' ⊢
  linarith

/-- A slab between two parallel planes bounds the second moment. -/
theorem slab {y : (Fin 3 → ℕ) → ℝ} {l : MvPolynomial (Fin 3) ℝ} {h : ℝ} (hh : 0 < h) (hl : l.totalDegree ≤ 1)
    (h1 : ∀ q : MvPolynomial (Fin 3) ℝ, q.totalDegree ≤ 1 → 0 ≤ pairing y ((C h - l) * q ^ 2))
    (h2 : ∀ q : MvPolynomial (Fin 3) ℝ, q.totalDegree ≤ 1 → 0 ≤ pairing y ((C h + l) * q ^ 2)) :
    pairing y (l * l) ≤ h ^ 2 * y 0 := by
  have a := h1 (C h + l) ((totalDegree_add _ _).trans (max_le (by rw [totalDegree_C]; omega) hl))
  have b := h2 (C h - l) ((totalDegree_sub _ _).trans (max_le (by rw [totalDegree_C]; omega) hl))
  have e : (C h - l) * (C h + l) ^ 2 + (C h + l) * (C h - l) ^ 2 = C (2 * h) * (C (h ^ 2) - l * l) := by
    simp only [C_mul, C_pow]
    rw [show (C (2 : ℝ) : MvPolynomial (Fin 3) ℝ) = 2 from map_ofNat C 2]
    ring
  have := add_nonneg a b
  rw [← map_add, e, pairing_C_mul, map_sub, pairing_C] at this
  nlinarith [(mul_nonneg_iff_of_pos_left (show 0 < 2 * h by linarith)).mp this]

/-! ### The two shapes -/

/-- At order two and above the relaxation of a box bounds the second moments in its frame. -/
theorem box_sdp_diag (b : Box ℝ) (hR : Spec.Orthogonal b.rotation) (hh : ∀ i, 0 < b.halfExtents i)
    {J : Matrix (Fin 4) (Fin 4) ℝ} (hJ : Jᵀ = J) (hm : J 3 3 = 1) {d : ℕ} (hd : 2 ≤ d)
    (h : Py.Holds (b.momentSdpConstraints (.mat J) 0 d)) (i : Fin 3) :
    (transformMatrixInv b.rotation b.center * J * (transformMatrixInv b.rotation b.center)ᵀ) i.castSucc i.castSucc ≤
      b.halfExtents i ^ 2 := by
  obtain ⟨y, e1, e2, e3, -, h5⟩ := (C52_relaxation b.toPoly (box_rows_ne_zero b hR) J 0 le_rfl d (by omega)).mp h
  obtain ⟨⟨f, hf, ef⟩, f', hf', ef'⟩ := box_face_lin b i
  set v := transformMatrixInv b.rotation b.center i.castSucc with hv
  have hn : (C (-1 : ℝ) : MvPolynomial (Fin 3) ℝ) = -1 := by rw [C_neg, C_1]
  have key := slab (y := y) (l := lin v) (hh i) (lin_degree v) (fun q hq => by
      have t := LocalizedPSD.pairing_nonneg (h5 f hf) q (by omega)
      rw [ef, lin_add, lin_smul, lin_smul, lin_single, hn, mul_one, neg_one_mul, ← sub_eq_add_neg] at t
      exact t) (fun q hq => by
      have t := LocalizedPSD.pairing_nonneg (h5 f' hf') q (by omega)
      rw [ef', lin_add, lin_smul, lin_single, mul_one] at t
      exact t)
  rw [pairing_lin_mul hJ e1 e2 e3, e1, hm, mul_one] at key
  refine le_trans (le_of_eq ?_) key
  rw [Matrix.mul_assoc, mul_apply_eq_vecMul, vecMul_eq_sum]
  simp [dotProduct, mulVec, mul_apply, Finset.sum_apply, hv]

/-- The relaxation of a box gets tighter with its order. -/
theorem box_sdp_mono (b : Box ℝ) (hR : Spec.Orthogonal b.rotation) {J : Matrix (Fin 4) (Fin 4) ℝ} {d d' : ℕ} (hd : 1 ≤ d)
    (hdd : d ≤ d') (h : Py.Holds (b.momentSdpConstraints (.mat J) 0 d')) :
    Py.Holds (b.momentSdpConstraints (.mat J) 0 d) := by
  obtain ⟨y, e1, e2, e3, h4, h5⟩ :=
    (C52_relaxation b.toPoly (box_rows_ne_zero b hR) J 0 le_rfl d' (by omega)).mp h
  exact (C52_relaxation b.toPoly (box_rows_ne_zero b hR) J 0 le_rfl d hd).mpr ⟨y, e1, e2, e3, LocalizedPSD_mono hdd h4,
    fun f hf => LocalizedPSD_mono (by omega) (h5 f hf)⟩

theorem cylinder_sdp_iff (c : Cylinder ℝ) (J : Matrix (Fin 4) (Fin 4) ℝ) {d : ℕ} (hd : 1 ≤ d) :
    Py.Holds (c.momentSdpConstraints (.mat J) 0 d) ↔
      ∃ y, PseudoMoments d c.poly0s ((transformMatrixInv c.rotation c.center * J * (transformMatrixInv c.rotation c.center)ᵀ) 3 3)
      (fun i => (transformMatrixInv c.rotation c.center * J * (transformMatrixInv c.rotation c.center)ᵀ) i.castSucc 3)
      (Matrix.of fun i j =>
        (transformMatrixInv c.rotation c.center * J * (transformMatrixInv c.rotation c.center)ᵀ) i.castSucc j.castSucc) y := by
  obtain ⟨a, ha, -⟩ := C19_mat J 0 le_rfl
  unfold Cylinder.momentSdpConstraints
  rw [ha]
  exact momentSdp_iff hd _ (fun f hf => by
    obtain ⟨h1, D, h2, h3⟩ := poly0s_wf c f hf
    exact ⟨h1, D, h2, by omega⟩) _

theorem cylinder_sdp_mono (c : Cylinder ℝ) {J : Matrix (Fin 4) (Fin 4) ℝ} {d d' : ℕ} (hd : 1 ≤ d)
    (hdd : d ≤ d') (h : Py.Holds (c.momentSdpConstraints (.mat J) 0 d')) :
    Py.Holds (c.momentSdpConstraints (.mat J) 0 d) := by
  obtain ⟨y, y0, y1, y2, y3, y4⟩ := (cylinder_sdp_iff c J (hd.trans hdd)).mp h
  exact (cylinder_sdp_iff c J hd).mpr ⟨y, y0, y1, y2, LocalizedPSD_mono hdd y3,
    fun p hp D hD => LocalizedPSD_mono (by omega) (y4 p hp D hD)⟩

theorem transformInv_last (R : Matrix (Fin 3) (Fin 3) ℝ) (t : Fin 3 → ℝ) :
    transformMatrixInv R t (Fin.last 3) = Pi.single (Fin.last 3) 1 := by
  funext k
  refine Fin.lastCases ?_ (fun j => ?_) k
  · rw [transformMatrixInv, transformMatrix, bordered_ll]; simp
  · rw [transformMatrixInv, transformMatrix, bordered_lc, Pi.single_eq_of_ne (Fin.castSucc_ne_last j)]; rfl

theorem transformInv_mass (R : Matrix (Fin 3) (Fin 3) ℝ) (t : Fin 3 → ℝ) (J : Matrix (Fin 4) (Fin 4) ℝ) :
    (transformMatrixInv R t * J * (transformMatrixInv R t)ᵀ) 3 3 = J 3 3 := by
  change (transformMatrixInv R t * J * (transformMatrixInv R t)ᵀ) (Fin.last 3) (Fin.last 3) = J (Fin.last 3) (Fin.last 3)
  simp only [mul_apply, transpose_apply, transformInv_last, Pi.single_apply]
  simp

/-- At order two and above the relaxation of a cylinder bounds the second moments in its frame. -/
theorem cylinder_sdp_diag (c : Cylinder ℝ) (hL : 0 < c.length)
    {J : Matrix (Fin 4) (Fin 4) ℝ} (hm : J 3 3 = 1) {d : ℕ} (hd : 2 ≤ d)
    (h : Py.Holds (c.momentSdpConstraints (.mat J) 0 d)) (i : Fin 3) :
    (transformMatrixInv c.rotation c.center * J * (transformMatrixInv c.rotation c.center)ᵀ) i.castSucc i.castSucc ≤
      (![c.radius ^ 2, c.radius ^ 2, (c.length / 2) ^ 2] : Fin 3 → ℝ) i := by
  obtain ⟨y, y0, y1, y2, y3, y4⟩ := (cylinder_sdp_iff c J (by omega)).mp h
  have key : ∀ g, Polynomial.init g ∈ c.poly0s → (g.map Prod.fst).Nodup → Spec.LocalizedPSD (d - 1) g y := by
    intro g hg hn
    obtain ⟨-, D, h2, h3⟩ := poly0s_wf c _ hg
    have := y4 _ hg D h2
    rw [init_coefficients _ hn, LocalizedPSD_filter] at this
    exact LocalizedPSD_mono (by omega) this
  have k1 := key [(![0, 0, 1], 1), (![0, 0, 0], (1 / 2) * c.length)] (by simp [Cylinder.poly0s]) (by simp)
  have k2 := key [(![0, 0, 1], -1), (![0, 0, 0], (1 / 2) * c.length)] (by simp [Cylinder.poly0s]) (by simp)
  have k3 := key [(![2, 0, 0], -1), (![0, 2, 0], -1), (![0, 0, 0], c.radius ^ 2)] (by simp [Cylinder.poly0s]) (by simp)
  rw [transformInv_mass, hm] at y0
  have hXX : ∀ i : Fin 3, y (Pi.single i 1 + Pi.single i 1) = pairing y (X i * X i) := fun i => by
    have := pairing_XX y 1 i i
    rw [C_1, one_mul, one_mul] at this
    exact this.symm
  have hnn : ∀ i : Fin 3, 0 ≤ pairing y (X i * X i) := fun i => by
    have := LocalizedPSD.pairing_nonneg y3 (X i) (by rw [totalDegree_X]; omega)
    rwa [ofTerms_one, one_mul, sq] at this
  have hdisk : pairing y (X 0 * X 0) + pairing y (X 1 * X 1) ≤ c.radius ^ 2 := by
    have := LocalizedPSD.pairing_nonneg k3 1 (by rw [totalDegree_one]; omega)
    have e : ofTerms [(![2, 0, 0], -1), (![0, 2, 0], -1), (![0, 0, 0], c.radius ^ 2)] * 1 ^ 2 =
        C (c.radius ^ 2) - (X 0 * X 0 : MvPolynomial (Fin 3) ℝ) - X 1 * X 1 := by
      simp only [ofTerms, List.map_cons, List.map_nil, List.sum_cons, List.sum_nil, mono_eq]
      simp
      ring
    rw [e, map_sub, map_sub, pairing_C, y0] at this
    linarith
  have hslab : pairing y (X 2 * X 2) ≤ (c.length / 2) ^ 2 := by
    have hl : (X 2 : MvPolynomial (Fin 3) ℝ).totalDegree ≤ 1 := (totalDegree_X _).le
    have hc : (1 / 2) * c.length = c.length / 2 := by ring
    have e1 : ofTerms [(![0, 0, 1], 1), (![0, 0, 0], (1 / 2) * c.length)] =
        (C (c.length / 2) + X 2 : MvPolynomial (Fin 3) ℝ) := by
      rw [hc]
      simp only [ofTerms, List.map_cons, List.map_nil, List.sum_cons, List.sum_nil, mono_eq]
      simp
      ring
    have e2 : ofTerms [(![0, 0, 1], -1), (![0, 0, 0], (1 / 2) * c.length)] =
        (C (c.length / 2) - X 2 : MvPolynomial (Fin 3) ℝ) := by
      rw [hc]
      simp only [ofTerms, List.map_cons, List.map_nil, List.sum_cons, List.sum_nil, mono_eq]
      simp
      ring
    have := slab (y := y) (l := X 2) (h := c.length / 2) (by linarith) hl
      (fun q hq => by rw [← e2]; exact LocalizedPSD.pairing_nonneg k2 q (by omega))
      (fun q hq => by rw [← e1]; exact LocalizedPSD.pairing_nonneg k1 q (by omega))
    rwa [y0, mul_one] at this
  have e := y2 i i
  rw [Matrix.of_apply] at e
  rw [← e, hXX]
  fin_cases i
  · simp; linarith [hnn 1]
  · simp; linarith [hnn 0]
  · simpa using hslab

/-! ### The scripts -/

theorem mapM_getElem {α β : Type} {f : α → Py β} {l : List α} {bs : List β} (h : l.mapM f = .ok bs) :
    bs.length = l.length ∧ ∀ (k : ℕ) (hk : k < l.length), ∃ b, bs[k]? = some b ∧ f l[k] = .ok b := by
  induction l generalizing bs with
  | nil =>
    obtain rfl : [] = bs := Except.ok.inj h
    simp
  | cons a l ih =>
    rw [List.mapM_cons] at h
    cases ha : f a with
    | error e => rw [ha] at h; cases h
    | ok b =>
      rw [ha] at h
      cases hl : l.mapM f with
      | error e => rw [hl] at h; cases h
      | ok bs' =>
        rw [hl] at h
        obtain rfl : b :: bs' = bs := Except.ok.inj h
        obtain ⟨h1, h2⟩ := ih hl
        refine ⟨by simp [h1], fun k hk => ?_⟩
        cases k with
        | zero => exact ⟨b, rfl, ha⟩
        | succ k => exact h2 k (by simpa using hk)

theorem setupDripProblem_ok {c : ParamVar ℝ → Py Prop} (h : ∃ p, c (.mat 0) = .ok p) :
    setupDripProblem 1 c = .ok (dripSet fun J => Py.Holds (c (.mat J))) := by
  obtain ⟨p, hp⟩ := h
  unfold setupDripProblem
  rw [hp]
  rfl

/-- One row of the data. -/
noncomputable def dripRow (solve : Set ℝ → Py ℝ) (sdp : ℕ → ParamVar ℝ → Py Prop) (custom : ParamVar ℝ → Py Prop)
    (Dvec : List ℝ) : Py (ℝ × ℝ × ℝ) := do
  let D ← unvech Dvec
  if h : D.1 = 4 then
    let D : Matrix (Fin 4) (Fin 4) ℝ := h ▸ D.2
    let v2 ← solve (dripSet (fun J => Py.Holds (sdp 2 (.mat J))) D)
    let v3 ← solve (dripSet (fun J => Py.Holds (sdp 3 (.mat J))) D)
    let vc ← solve (dripSet (fun J => Py.Holds (custom (.mat J))) D)
    pure (v2, v3, vc)
  else throw .value

theorem randomOptimalValues_eq {solve : Set ℝ → Py ℝ} {sdp : ℕ → ParamVar ℝ → Py Prop} {custom : ParamVar ℝ → Py Prop}
    (h2 : ∃ p, sdp 2 (.mat 0) = .ok p) (h3 : ∃ p, sdp 3 (.mat 0) = .ok p) (hc : ∃ p, custom (.mat 0) = .ok p)
    (Dvecs : List (List ℝ)) : randomOptimalValues solve sdp custom Dvecs =
      (Dvecs.mapM (dripRow solve sdp custom) >>= fun rows =>
        .ok ⟨rows.map (·.1), rows.map (·.2.1), rows.map (·.2.2)⟩) := by
  unfold randomOptimalValues
  rw [setupDripProblem_ok h2, setupDripProblem_ok h3, setupDripProblem_ok hc]
  rfl

theorem dripRow_ok {solve : Set ℝ → Py ℝ} {sdp : ℕ → ParamVar ℝ → Py Prop} {custom : ParamVar ℝ → Py Prop}
    {Dvec : List ℝ} {r : ℝ × ℝ × ℝ} (hlen : Dvec.length = 10) (h : dripRow solve sdp custom Dvec = .ok r) :
    ∃ D : Matrix (Fin 4) (Fin 4) ℝ, unvech Dvec = .ok ⟨4, D⟩ ∧ Dᵀ = D ∧
      solve (dripSet (fun J => Py.Holds (sdp 2 (.mat J))) D) = .ok r.1 ∧
      solve (dripSet (fun J => Py.Holds (sdp 3 (.mat J))) D) = .ok r.2.1 ∧
      solve (dripSet (fun J => Py.Holds (custom (.mat J))) D) = .ok r.2.2 := by
  obtain ⟨D, hD⟩ := C01_unvech_ok Dvec 4 (by norm_num) (by rw [hlen])
  refine ⟨D, hD, (C01_vech_unvech Dvec 4 D hD).2.1, ?_⟩
  unfold dripRow at h
  rw [hD] at h
  change (solve _ >>= fun v2 => solve _ >>= fun v3 => solve _ >>= fun vc => pure (v2, v3, vc)) = _ at h
  cases e2 : solve (dripSet (fun J => Py.Holds (sdp 2 (.mat J))) D) with
  | error e => rw [e2] at h; cases h
  | ok v2 =>
    rw [e2] at h
    cases e3 : solve (dripSet (fun J => Py.Holds (sdp 3 (.mat J))) D) with
    | error e => 
      change (solve _ >>= fun v3 => solve _ >>= fun vc => pure (v2, v3, vc)) = _ at h
      rw [e3] at h; cases h
    | ok v3 =>
      change (solve _ >>= fun v3 => solve _ >>= fun vc => pure (v2, v3, vc)) = _ at h
      rw [e3] at h
      cases ec : solve (dripSet (fun J => Py.Holds (custom (.mat J))) D) with
      | error e =>
        change (solve _ >>= fun vc => pure (v2, v3, vc)) = _ at h
        rw [ec] at h; cases h
      | ok vc =>
        change (solve _ >>= fun vc => pure (v2, v3, vc)) = _ at h
        rw [ec] at h
        obtain rfl := Except.ok.inj h
        exact ⟨rfl, rfl, rfl⟩

theorem dripRow_total {solve : Set ℝ → Py ℝ} {sdp : ℕ → ParamVar ℝ → Py Prop} {custom : ParamVar ℝ → Py Prop}
    {Dvec : List ℝ} (hlen : Dvec.length = 10) (hs : Spec.Complete solve)
    (h : ∀ D : Matrix (Fin 4) (Fin 4) ℝ, ∀ c ∈ [sdp 2, sdp 3, custom],
      (dripSet (fun J => Py.Holds (c (.mat J))) D).Nonempty ∧ BddAbove (dripSet (fun J => Py.Holds (c (.mat J))) D)) :
    ∃ r, dripRow solve sdp custom Dvec = .ok r := by
  obtain ⟨D, hD⟩ := C01_unvech_ok Dvec 4 (by norm_num) (by rw [hlen])
  obtain ⟨v2, e2⟩ := hs _ (h D (sdp 2) (by simp)).1 (h D (sdp 2) (by simp)).2
  obtain ⟨v3, e3⟩ := hs _ (h D (sdp 3) (by simp)).1 (h D (sdp 3) (by simp)).2
  obtain ⟨vc, ec⟩ := hs _ (h D custom (by simp)).1 (h D custom (by simp)).2
  refine ⟨(v2, v3, vc), ?_⟩
  unfold dripRow
  rw [hD]
  change (solve _ >>= fun v2 => solve _ >>= fun v3 => solve _ >>= fun vc => pure (v2, v3, vc)) = _
  rw [e2]
  change (solve _ >>= fun v3 => solve _ >>= fun vc => pure (v2, v3, vc)) = _
  rw [e3]
  change (solve _ >>= fun vc => pure (v2, v3, vc)) = _
  rw [ec]
  rfl

/-- The data, row by row. -/
theorem drip_data {solve : Set ℝ → Py ℝ} {sdp : ℕ → ParamVar ℝ → Py Prop} {custom : ParamVar ℝ → Py Prop}
    (h2 : ∃ p, sdp 2 (.mat 0) = .ok p) (h3 : ∃ p, sdp 3 (.mat 0) = .ok p) (hc : ∃ p, custom (.mat 0) = .ok p)
    {Dvecs : List (List ℝ)} (hlen : ∀ v ∈ Dvecs, v.length = 10) {data : DripData}
    (h : randomOptimalValues solve sdp custom Dvecs = .ok data) :
    data.momentD2Values.length = Dvecs.length ∧ data.momentD3Values.length = Dvecs.length ∧
    data.customValues.length = Dvecs.length ∧ ∀ (k : ℕ) (hk : k < Dvecs.length), ∃ (D : Matrix (Fin 4) (Fin 4) ℝ) (v2 v3 vc : ℝ),
      unvech Dvecs[k] = .ok ⟨4, D⟩ ∧ Dᵀ = D ∧ data.momentD2Values[k]? = some v2 ∧ data.momentD3Values[k]? = some v3 ∧
      data.customValues[k]? = some vc ∧
      solve (dripSet (fun J => Py.Holds (sdp 2 (.mat J))) D) = .ok v2 ∧
      solve (dripSet (fun J => Py.Holds (sdp 3 (.mat J))) D) = .ok v3 ∧
      solve (dripSet (fun J => Py.Holds (custom (.mat J))) D) = .ok vc := by
  rw [randomOptimalValues_eq h2 h3 hc] at h
  cases hr : Dvecs.mapM (dripRow solve sdp custom) with
  | error e => rw [hr] at h; cases h
  | ok rows =>
    rw [hr] at h
    obtain rfl := Except.ok.inj h
    obtain ⟨l1, l2⟩ := mapM_getElem hr
    refine ⟨by simp [l1], by simp [l1], by simp [l1], fun k hk => ?_⟩
    obtain ⟨r, r1, r2⟩ := l2 k hk
    obtain ⟨D, d1, d2, d3, d4, d5⟩ := dripRow_ok (hlen _ (List.getElem_mem hk)) r2
    exact ⟨D, r.1, r.2.1, r.2.2, d1, d2, by simp [r1], by simp [r1], by simp [r1], d3, d4, d5⟩

theorem foldl_min_isLeast : ∀ (l : List ℝ) (x : ℝ), IsLeast {y | y ∈ x :: l} (l.foldl min x)
  | [], x => by simp
  | y :: l, x => by
    obtain ⟨h1, h2⟩ := foldl_min_isLeast l (min x y)
    constructor
    · rcases List.mem_cons.mp h1 with h | h
      · rw [List.foldl_cons, h]
        rcases min_choice x y with e | e <;> rw [e] <;> simp
      · exact List.mem_cons_of_mem _ (List.mem_cons_of_mem _ h)
    · intro z hz
      have h0 := h2 (List.mem_cons_self : min x y ∈ min x y :: l)
      rcases List.mem_cons.mp hz with rfl | hz
      · exact h0.trans (min_le_left _ _)
      rcases List.mem_cons.mp hz with rfl | hz
      · exact h0.trans (min_le_right _ _)
      · exact h2 (List.mem_cons_of_mem _ hz)

theorem foldl_max_isGreatest : ∀ (l : List ℝ) (x : ℝ), IsGreatest {y | y ∈ x :: l} (l.foldl max x)
  | [], x => by simp
  | y :: l, x => by
    obtain ⟨h1, h2⟩ := foldl_max_isGreatest l (max x y)
    constructor
    · rcases List.mem_cons.mp h1 with h | h
      · rw [List.foldl_cons, h]
        rcases max_choice x y with e | e <;> rw [e] <;> simp
      · exact List.mem_cons_of_mem _ (List.mem_cons_of_mem _ h)
    · intro z hz
      have h0 := h2 (List.mem_cons_self : max x y ∈ max x y :: l)
      rcases List.mem_cons.mp hz with rfl | hz
      · exact (le_max_left _ _).trans h0
      rcases List.mem_cons.mp hz with rfl | hz
      · exact (le_max_right _ _).trans h0
      · exact h2 (List.mem_cons_of_mem _ hz)

theorem mem_arraySub {A B l : List ℝ} (h : arraySub A B = .ok l) :
    {y | y ∈ l} = {y : ℝ | ∃ (k : ℕ) (a b : ℝ), A[k]? = some a ∧ B[k]? = some b ∧ y = a - b} := by
  unfold arraySub at h
  split_ifs at h with hl
  obtain rfl := Except.ok.inj h
  ext y
  constructor
  · intro hy
    obtain ⟨k, hk, rfl⟩ := List.mem_iff_getElem.mp hy
    rw [List.length_zipWith] at hk
    refine ⟨k, A[k]'(by omega), B[k]'(by omega), List.getElem?_eq_getElem _, List.getElem?_eq_getElem _, ?_⟩
    rw [List.getElem_zipWith]
  · rintro ⟨k, a, b, ha, hb, rfl⟩
    obtain ⟨ha, rfl⟩ := List.getElem?_eq_some_iff.mp ha
    obtain ⟨hb, rfl⟩ := List.getElem?_eq_some_iff.mp hb
    refine List.mem_iff_getElem.mpr ⟨k, by rw [List.length_zipWith]; omega, ?_⟩
    rw [List.getElem_zipWith]

/-- C97: `process_drip_data.py` prints the largest and smallest differences of the values of the relaxations and the custom
values; it raises `ValueError` if there are none. -/
theorem C97_report (data : DripData) (h2 : data.momentD2Values.length = data.customValues.length)
    (h3 : data.momentD3Values.length = data.customValues.length) :
    (data.customValues = [] → processDripData data = .error .value) ∧
    (data.customValues ≠ [] → ∃ r, processDripData data = .ok r ∧
      IsGreatest {y : ℝ | ∃ (k : ℕ) (v3 vc : ℝ), data.momentD3Values[k]? = some v3 ∧ data.customValues[k]? = some vc ∧
        y = v3 - vc} r.maxD3 ∧
      IsGreatest {y : ℝ | ∃ (k : ℕ) (v2 vc : ℝ), data.momentD2Values[k]? = some v2 ∧ data.customValues[k]? = some vc ∧
        y = v2 - vc} r.maxD2 ∧
      IsLeast {y : ℝ | ∃ (k : ℕ) (v3 vc : ℝ), data.momentD3Values[k]? = some v3 ∧ data.customValues[k]? = some vc ∧
        y = v3 - vc} r.minD3 ∧
      IsLeast {y : ℝ | ∃ (k : ℕ) (v2 vc : ℝ), data.momentD2Values[k]? = some v2 ∧ data.customValues[k]? = some vc ∧
        y = v2 - vc} r.minD2) := by
  obtain ⟨A2, A3, A⟩ := data
  simp only at h2 h3 ⊢
  cases A with
  | nil =>
    obtain rfl := List.length_eq_zero_iff.mp h2
    obtain rfl := List.length_eq_zero_iff.mp h3
    exact ⟨fun _ => rfl, fun h => absurd rfl h⟩
  | cons x A =>
    refine ⟨fun h => absurd h (List.cons_ne_nil _ _), fun _ => ?_⟩
    cases A2 with
    | nil => simp at h2
    | cons x2 A2 =>
      cases A3 with
      | nil => simp at h3
      | cons x3 A3 =>
        simp only [List.length_cons, Nat.add_right_cancel_iff] at h2 h3
        have e3 : arraySub (x3 :: A3) (x :: A) = .ok ((x3 - x) :: List.zipWith (fun x y => x - y) A3 A) := by
          simp [arraySub, h3]
        have e2 : arraySub (x2 :: A2) (x :: A) = .ok ((x2 - x) :: List.zipWith (fun x y => x - y) A2 A) := by
          simp [arraySub, h2]
        have e32 : arraySub (x3 :: A3) (x2 :: A2) = .ok ((x3 - x2) :: List.zipWith (fun x y => x - y) A3 A2) := by
          simp [arraySub, h2, h3]
        refine ⟨_, by unfold processDripData; simp only []; rw [e3, e2, e32]; rfl, ?_⟩
        rw [← mem_arraySub e3, ← mem_arraySub e2]
        exact ⟨foldl_max_isGreatest _ _, foldl_max_isGreatest _ _, foldl_min_isLeast _ _, foldl_min_isLeast _ _⟩

/-- The parameters of no mass at all. -/
theorem zero_J : ((⟨0, 0, 0⟩ : IP ℝ)).J = 0 := by
  unfold IP.J
  simp [IP.h, bordered_zero]

theorem box_builders (b : Box ℝ) (hR : Spec.Orthogonal b.rotation) :
    (∀ d, 1 ≤ d → ∃ p, b.momentSdpConstraints (.mat 0) 0 d = .ok p) ∧ ∃ p, b.momentCustomVertexConstraints (.mat 0) = .ok p := by
  have hz : Spec.Realizable (Spec.box b.halfExtents b.rotation b.center) (⟨0, 0, 0⟩ : IP ℝ).mass (⟨0, 0, 0⟩ : IP ℝ).h
      (⟨0, 0, 0⟩ : IP ℝ).H := by
    rw [← IP.realJ_iff, zero_J]; exact RealJ.zero _
  constructor
  · intro d hd
    have := (C52_necessary b.toPoly (box_rows_ne b hR) ⟨0, 0, 0⟩ (by rw [box_halfspaces b hR]; exact hz) 0 le_rfl d hd).1
    rw [zero_J] at this
    exact ⟨_, this.choose_spec.1⟩
  · have := (C54_default b hR ⟨0, 0, 0⟩ hz).1
    rw [zero_J] at this
    exact ⟨_, this.choose_spec.1⟩

theorem cylinder_builders (c : Cylinder ℝ) (hR : Spec.Orthogonal c.rotation) (hr : Spec.Resolved c.radius) :
    (∀ d, 1 ≤ d → ∃ p, c.momentSdpConstraints (.mat 0) 0 d = .ok p) ∧
      ∃ p, c.momentCustomVertexConstraints (.mat 0) = .ok p := by
  have hz : Spec.Realizable (Spec.cylinder c.length c.radius c.rotation c.center) (⟨0, 0, 0⟩ : IP ℝ).mass
      (⟨0, 0, 0⟩ : IP ℝ).h (⟨0, 0, 0⟩ : IP ℝ).H := by
    rw [← IP.realJ_iff, zero_J]; exact RealJ.zero _
  constructor
  · intro d hd
    have := (C55_sdp_necessary c hR ⟨0, 0, 0⟩ hz 0 le_rfl d hd).1
    rw [zero_J] at this
    exact ⟨_, this.choose_spec.1⟩
  · have := (C55_vertex_necessary c hR hr ⟨0, 0, 0⟩ hz).1
    rw [zero_J] at this
    exact ⟨_, this.choose_spec.1⟩

theorem center_mem_box (b : Box ℝ) (hh : ∀ i, 0 ≤ b.halfExtents i) :
    b.center ∈ Spec.box b.halfExtents b.rotation b.center := by
  refine ⟨0, fun i => by simpa using hh i, ?_⟩
  simp [Spec.rigid]

theorem center_mem_cylinder (c : Cylinder ℝ) (hL : 0 ≤ c.length) :
    c.center ∈ Spec.cylinder c.length c.radius c.rotation c.center := by
  refine ⟨0, ?_, ?_, ?_⟩
  · simp; linarith
  · simp; positivity
  · simp [Spec.rigid]

theorem box_real_sdp (b : Box ℝ) (hR : Spec.Orthogonal b.rotation) {J : Matrix (Fin 4) (Fin 4) ℝ} (hJ : Jᵀ = J)
    (hm : J 3 3 = 1) (h : RealJ (Spec.box b.halfExtents b.rotation b.center) J) :
    (∀ d, 1 ≤ d → Py.Holds (b.momentSdpConstraints (.mat J) 0 d)) ∧ Py.Holds (b.momentCustomVertexConstraints (.mat J)) := by
  obtain ⟨p, rfl, -, -⟩ := exists_ip_one hJ hm
  rw [IP.realJ_iff] at h
  exact ⟨fun d hd => (C52_necessary b.toPoly (box_rows_ne b hR) p (by rw [box_halfspaces b hR]; exact h) 0 le_rfl d hd).1,
    (C54_default b hR p h).1⟩

theorem cylinder_real_sdp (c : Cylinder ℝ) (hR : Spec.Orthogonal c.rotation) {J : Matrix (Fin 4) (Fin 4) ℝ} (hJ : Jᵀ = J)
    (hm : J 3 3 = 1) (h : RealJ (Spec.cylinder c.length c.radius c.rotation c.center) J) (d : ℕ) (hd : 1 ≤ d) :
    Py.Holds (c.momentSdpConstraints (.mat J) 0 d) := by
  obtain ⟨p, rfl, -, -⟩ := exists_ip_one hJ hm
  rw [IP.realJ_iff] at h
  exact (C55_sdp_necessary c hR p h 0 le_rfl d hd).1

theorem cylinder_custom_iff (c : Cylinder ℝ) (hR : Spec.Orthogonal c.rotation) (hr : Spec.Resolved c.radius)
    (hL : 0 ≤ c.length) {J : Matrix (Fin 4) (Fin 4) ℝ} (hJ : Jᵀ = J) (hm : J 3 3 = 1) :
    Py.Holds (c.momentCustomVertexConstraints (.mat J)) ↔ RealJ (Spec.cylinder c.length c.radius c.rotation c.center) J := by
  obtain ⟨p, rfl, -, -⟩ := exists_ip_one hJ hm
  rw [IP.realJ_iff]
  exact C88_exact c hR hr hL p

theorem lub_le {A B : Set ℝ} {tol v w : ℝ} (hAB : A ⊆ B) {s t : ℝ} (hs : IsLUB A s) (ht : IsLUB B t) (h1 : |v - s| ≤ tol)
    (h2 : |w - t| ≤ tol) : v ≤ w + 2 * tol := by
  have := hs.mono ht hAB
  have a := (abs_le.mp h1).2
  have b := (abs_le.mp h2).1
  linarith

/-- C97: for a cylinder every custom value in the data of `generate_drip_data.py` is, up to the tolerance of the solver, the
maximum of the quadratic function `[p, 1]ᵀ D [p, 1]` on the cylinder; it is not larger than the value of the moment
relaxation of order 3, which is not larger than that of order 2. -/
theorem C97_cylinder (tol : ℝ) (solve : Set ℝ → Py ℝ) (hs : Spec.Solves tol solve) (c : Cylinder ℝ)
    (hR : Spec.Orthogonal c.rotation) (hr : Spec.Resolved c.radius) (hL : 0 ≤ c.length) (Dvecs : List (List ℝ))
    (hlen : ∀ v ∈ Dvecs, v.length = 10) (data : DripData) (h : cylinderDripData solve c Dvecs = .ok data) :
    data.momentD2Values.length = Dvecs.length ∧ data.momentD3Values.length = Dvecs.length ∧
    data.customValues.length = Dvecs.length ∧ ∀ (k : ℕ) (hk : k < Dvecs.length),
      ∃ (D : Matrix (Fin 4) (Fin 4) ℝ) (v2 v3 vc s : ℝ), unvech Dvecs[k] = .ok ⟨4, D⟩ ∧
        data.momentD2Values[k]? = some v2 ∧ data.momentD3Values[k]? = some v3 ∧ data.customValues[k]? = some vc ∧
        IsGreatest (Spec.quadratic D '' Spec.cylinder c.length c.radius c.rotation c.center) s ∧ |vc - s| ≤ tol ∧
        vc ≤ v3 + 2 * tol ∧ v3 ≤ v2 + 2 * tol := by
  obtain ⟨b1, b2⟩ := cylinder_builders c hR hr
  obtain ⟨l2, l3, lc, key⟩ := drip_data (b1 2 (by norm_num)) (b1 3 (by norm_num)) b2 hlen h
  refine ⟨l2, l3, lc, fun k hk => ?_⟩
  obtain ⟨D, v2, v3, vc, d1, -, d3, d4, d5, d6, d7, d8⟩ := key k hk
  obtain ⟨s, hsm⟩ := quadratic_max (cylinder_compact' c.length c.radius hR c.center) ⟨_, center_mem_cylinder c hL⟩ D
  obtain ⟨s2, m2, n2⟩ := hs _ _ d6
  obtain ⟨s3, m3, n3⟩ := hs _ _ d7
  obtain ⟨sc, mc, nc⟩ := hs _ _ d8
  have e : dripSet (fun J => Py.Holds (c.momentCustomVertexConstraints (.mat J))) D =
      dripSet (RealJ (Spec.cylinder c.length c.radius c.rotation c.center)) D :=
    subset_antisymm (dripSet_mono (fun J hJ hm => (cylinder_custom_iff c hR hr hL hJ hm).mp) D)
      (dripSet_mono (fun J hJ hm => (cylinder_custom_iff c hR hr hL hJ hm).mpr) D)
  have hsc : sc = s := by
    refine IsLeast.unique (b := s) (mc : IsLeast _ sc) ?_
    rw [e, upperBounds_real]
    exact hsm.isLUB
  refine ⟨D, v2, v3, vc, s, d1, d3, d4, d5, hsm, hsc ▸ nc, lub_le ?_ mc m3 nc n3, lub_le ?_ m3 m2 n3 n2⟩
  · exact dripSet_mono (fun J hJ hm hc =>
      cylinder_real_sdp c hR hJ hm ((cylinder_custom_iff c hR hr hL hJ hm).mp hc) 3 (by norm_num)) D
  · exact dripSet_mono (fun J _ _ => cylinder_sdp_mono c (by norm_num) (by norm_num)) D

/-- C97: what `process_drip_data.py` expects of the data is true for a cylinder: the minima it prints are non-negative
up to the tolerance of the solver. -/
theorem C97_cylinder_report (tol : ℝ) (solve : Set ℝ → Py ℝ) (hs : Spec.Solves tol solve) (c : Cylinder ℝ)
    (hR : Spec.Orthogonal c.rotation) (hr : Spec.Resolved c.radius) (hL : 0 ≤ c.length) (Dvecs : List (List ℝ))
    (hne : Dvecs ≠ []) (hlen : ∀ v ∈ Dvecs, v.length = 10) (data : DripData)
    (h : cylinderDripData solve c Dvecs = .ok data) :
    ∃ r, processDripData data = .ok r ∧ -(2 * tol) ≤ r.minD3 ∧ -(4 * tol) ≤ r.minD2 := by
  obtain ⟨l2, l3, lc, key⟩ := C97_cylinder tol solve hs c hR hr hL Dvecs hlen data h
  obtain ⟨r, hr, -, -, hm3, hm2⟩ := (C97_report data (l2.trans lc.symm) (l3.trans lc.symm)).2 (by
    rintro e; rw [e] at lc; exact hne (List.length_eq_zero_iff.mp lc.symm))
  refine ⟨r, hr, ?_, ?_⟩
  · obtain ⟨k, v3, vc, e3, ec, e⟩ := hm3.1
    have hk : k < Dvecs.length := by
      rw [← lc]; exact (List.getElem?_eq_some_iff.mp ec).1
    obtain ⟨D, w2, w3, wc, s, -, a2, a3, ac, -, -, i1, -⟩ := key k hk
    rw [a3] at e3; rw [ac] at ec
    obtain rfl := Option.some.inj e3
    obtain rfl := Option.some.inj ec
    linarith
  · obtain ⟨k, v2, vc, e2, ec, e⟩ := hm2.1
    have hk : k < Dvecs.length := by
      rw [← lc]; exact (List.getElem?_eq_some_iff.mp ec).1
    obtain ⟨D, w2, w3, wc, s, -, a2, a3, ac, -, -, i1, i2⟩ := key k hk
    rw [a2] at e2; rw [ac] at ec
    obtain rfl := Option.some.inj e2
    obtain rfl := Option.some.inj ec
    linarith

/-- C97: the script runs to the end for every cylinder with positive length and any draws, if the solver solves every
feasible and bounded problem. -/
theorem C97_cylinder_runs (solve : Set ℝ → Py ℝ) (hs : Spec.Complete solve) (c : Cylinder ℝ)
    (hR : Spec.Orthogonal c.rotation) (hr : Spec.Resolved c.radius) (hL : 0 < c.length) (Dvecs : List (List ℝ))
    (hlen : ∀ v ∈ Dvecs, v.length = 10) : ∃ data, cylinderDripData solve c Dvecs = .ok data := by
  obtain ⟨b1, b2⟩ := cylinder_builders c hR hr
  unfold cylinderDripData
  rw [randomOptimalValues_eq (b1 2 (by norm_num)) (b1 3 (by norm_num)) b2]
  have hne : ∀ D, (dripSet (RealJ (Spec.cylinder c.length c.radius c.rotation c.center)) D).Nonempty := fun D =>
    ⟨_, outer (IP.hom c.center) (IP.hom c.center), psd_outer_hom _, outer_hom_last _, by
      have := RealJ.point (zero_le_one (α := ℝ)) (center_mem_cylinder c hL.le)
      rwa [one_smul] at this, rfl⟩
  have hb : ∀ d, 2 ≤ d → ∀ D, (dripSet (fun J => Py.Holds (c.momentSdpConstraints (.mat J) 0 d)) D).Nonempty ∧
      BddAbove (dripSet (fun J => Py.Holds (c.momentSdpConstraints (.mat J) 0 d)) D) := fun d hd D =>
    ⟨(hne D).mono (dripSet_mono (fun J hJ hm hc => cylinder_real_sdp c hR hJ hm hc d (by omega)) D),
      dripSet_bdd hR c.center _ (fun J hJ hm hc => cylinder_sdp_diag c hL hm hd hc) D⟩
  obtain ⟨rows, hrows, -⟩ := mapM_ok_of_forall (dripRow solve (fun d x => c.momentSdpConstraints x 0 d)
      (fun x => c.momentCustomVertexConstraints x)) Dvecs fun v hv => dripRow_total (hlen v hv) hs fun D k hk => by
    simp only [List.mem_cons, List.not_mem_nil, or_false] at hk
    rcases hk with rfl | rfl | rfl
    · exact hb 2 le_rfl D
    · exact hb 3 (by norm_num) D
    · refine ⟨(hne D).mono (dripSet_mono (fun J hJ hm => (cylinder_custom_iff c hR hr hL.le hJ hm).mpr) D),
        (hb 2 le_rfl D).2.mono (dripSet_mono (fun J hJ hm hc =>
          cylinder_real_sdp c hR hJ hm ((cylinder_custom_iff c hR hr hL.le hJ hm).mp hc) 2 (by norm_num)) D)⟩
  rw [hrows]
  exact ⟨_, rfl⟩

/-- C97: for a box all three values are at least the maximum of the quadratic function on the box, up to the tolerance,
and the relaxation of order 3 is not above that of order 2. -/
theorem C97_box (tol : ℝ) (solve : Set ℝ → Py ℝ) (hs : Spec.Solves tol solve) (b : Box ℝ)
    (hR : Spec.Orthogonal b.rotation) (hh : ∀ i, 0 ≤ b.halfExtents i) (Dvecs : List (List ℝ))
    (hlen : ∀ v ∈ Dvecs, v.length = 10) (data : DripData) (h : boxDripData solve b Dvecs = .ok data) :
    data.momentD2Values.length = Dvecs.length ∧ data.momentD3Values.length = Dvecs.length ∧
    data.customValues.length = Dvecs.length ∧ ∀ (k : ℕ) (hk : k < Dvecs.length),
      ∃ (D : Matrix (Fin 4) (Fin 4) ℝ) (v2 v3 vc s : ℝ), unvech Dvecs[k] = .ok ⟨4, D⟩ ∧
        data.momentD2Values[k]? = some v2 ∧ data.momentD3Values[k]? = some v3 ∧ data.customValues[k]? = some vc ∧
        IsGreatest (Spec.quadratic D '' Spec.box b.halfExtents b.rotation b.center) s ∧ s ≤ vc + tol ∧ s ≤ v3 + tol ∧
        v3 ≤ v2 + 2 * tol := by
  obtain ⟨b1, b2⟩ := box_builders b hR
  obtain ⟨l2, l3, lc, key⟩ := drip_data (b1 2 (by norm_num)) (b1 3 (by norm_num)) b2 hlen h
  refine ⟨l2, l3, lc, fun k hk => ?_⟩
  obtain ⟨D, v2, v3, vc, d1, -, d3, d4, d5, d6, d7, d8⟩ := key k hk
  obtain ⟨s, hsm⟩ := quadratic_max (box_compact' b.halfExtents hR b.center) ⟨_, center_mem_box b hh⟩ D
  obtain ⟨s2, m2, n2⟩ := hs _ _ d6
  obtain ⟨s3, m3, n3⟩ := hs _ _ d7
  obtain ⟨sc, mc, nc⟩ := hs _ _ d8
  have hlub : IsLUB (dripSet (RealJ (Spec.box b.halfExtents b.rotation b.center)) D) s := by
    have := hsm.isLUB
    unfold IsLUB at this ⊢
    rwa [upperBounds_real]
  have i1 := hlub.mono mc (dripSet_mono (fun J hJ hm hc => (box_real_sdp b hR hJ hm hc).2) D)
  have i2 := hlub.mono m3 (dripSet_mono (fun J hJ hm hc => (box_real_sdp b hR hJ hm hc).1 3 (by norm_num)) D)
  exact ⟨D, v2, v3, vc, s, d1, d3, d4, d5, hsm, by linarith [(abs_le.mp nc).1], by linarith [(abs_le.mp n3).1],
    lub_le (dripSet_mono (fun J _ _ => box_sdp_mono b hR (by norm_num) (by norm_num)) D) m3 m2 n3 n2⟩

theorem box_sets (b : Box ℝ) (hR : Spec.Orthogonal b.rotation) (hh : ∀ i, 0 < b.halfExtents i)
    (D : Matrix (Fin 4) (Fin 4) ℝ) : (∀ d, 2 ≤ d → (dripSet (fun J => Py.Holds (b.momentSdpConstraints (.mat J) 0 d)) D).Nonempty ∧
      BddAbove (dripSet (fun J => Py.Holds (b.momentSdpConstraints (.mat J) 0 d)) D)) ∧
    (dripSet (fun J => Py.Holds (b.momentCustomVertexConstraints (.mat J))) D).Nonempty ∧
      BddAbove (dripSet (fun J => Py.Holds (b.momentCustomVertexConstraints (.mat J))) D) := by
  have hne : (dripSet (RealJ (Spec.box b.halfExtents b.rotation b.center)) D).Nonempty :=
    ⟨_, outer (IP.hom b.center) (IP.hom b.center), psd_outer_hom _, outer_hom_last _, by
      have := RealJ.point (zero_le_one (α := ℝ)) (center_mem_box b fun i => (hh i).le)
      rwa [one_smul] at this, rfl⟩
  refine ⟨fun d hd => ⟨hne.mono (dripSet_mono (fun J hJ hm hc => (box_real_sdp b hR hJ hm hc).1 d (by omega)) D),
      dripSet_bdd hR b.center _ (fun J hJ hm hc => box_sdp_diag b hR hh hJ.1 hm hd hc) D⟩,
    hne.mono (dripSet_mono (fun J hJ hm hc => (box_real_sdp b hR hJ hm hc).2) D), ?_⟩
  have hsub : dripSet (fun J => Py.Holds (b.momentCustomVertexConstraints (.mat J))) D ⊆
      dripSet (RealJ (Spec.ellipsoid (fun i => b.halfExtents i * Real.sqrt 3) b.rotation b.center)) D := by
    refine dripSet_mono (fun J hJ hm hc => ?_) D
    obtain ⟨e, he, hr⟩ := C54_mbe b hR (fun i => (hh i).le) J 0 hc
    rw [Box.mbe_false b fun i => (hh i).le] at he
    obtain rfl := Except.ok.inj he
    exact hr
  refine BddAbove.mono hsub ?_
  unfold BddAbove
  rw [upperBounds_real]
  have hcomp : IsCompact (Spec.ellipsoid (fun i => b.halfExtents i * Real.sqrt 3) b.rotation b.center) :=
    AnyShape.compact (s := .ellipsoid ⟨fun i => b.halfExtents i * Real.sqrt 3, b.rotation, b.center⟩)
      ⟨hR, fun i => mul_nonneg (hh i).le (Real.sqrt_nonneg _)⟩
  obtain ⟨s, hs⟩ := quadratic_max hcomp (by
    refine ⟨b.center, 0, ?_, ?_⟩
    · simp
    · simp only [Spec.rigid, Pi.zero_apply, mul_zero]
      rw [show (fun _ : Fin 3 => (0 : ℝ)) = 0 from rfl, mulVec_zero, zero_add]) D
  exact ⟨s, hs.2⟩

/-- C97: the script runs to the end for every box with positive half extents. -/
theorem C97_box_runs (solve : Set ℝ → Py ℝ) (hs : Spec.Complete solve) (b : Box ℝ)
    (hR : Spec.Orthogonal b.rotation) (hh : ∀ i, 0 < b.halfExtents i) (Dvecs : List (List ℝ))
    (hlen : ∀ v ∈ Dvecs, v.length = 10) : ∃ data, boxDripData solve b Dvecs = .ok data := by
  obtain ⟨b1, b2⟩ := box_builders b hR
  unfold boxDripData
  rw [randomOptimalValues_eq (b1 2 (by norm_num)) (b1 3 (by norm_num)) b2]
  obtain ⟨rows, hrows, -⟩ := mapM_ok_of_forall (dripRow solve (fun d x => b.momentSdpConstraints x 0 d)
      (fun x => b.momentCustomVertexConstraints x)) Dvecs fun v hv => dripRow_total (hlen v hv) hs fun D k hk => by
    simp only [List.mem_cons, List.not_mem_nil, or_false] at hk
    obtain ⟨h1, h2⟩ := box_sets b hR hh D
    rcases hk with rfl | rfl | rfl
    · exact h1 2 le_rfl
    · exact h1 3 (by norm_num)
    · exact h2
  rw [hrows]
  exact ⟨_, rfl⟩

/-- C97: for boxes the expectation of `process_drip_data.py` fails. For every box with positive half extents there are a
draw in the range of the script and a positive number by which both minima are below zero, up to the tolerance of the
solver, whenever the draw is among those of the run. -/
theorem C97_box_report (b : Box ℝ) (hR : Spec.Orthogonal b.rotation) (hh : ∀ i, 0 < b.halfExtents i) :
    ∃ Dvec : List ℝ, Dvec.length = 10 ∧ (∀ x ∈ Dvec, |x| ≤ 1) ∧ ∃ η : ℝ, 0 < η ∧
      ∀ (tol : ℝ) (solve : Set ℝ → Py ℝ), Spec.Solves tol solve → ∀ Dvecs : List (List ℝ), Dvec ∈ Dvecs →
        (∀ v ∈ Dvecs, v.length = 10) → ∀ data, boxDripData solve b Dvecs = .ok data →
          ∃ r, processDripData data = .ok r ∧ r.minD3 ≤ -η + 2 * tol ∧ r.minD2 ≤ -η + 2 * tol := by
  obtain ⟨D0, J, hD0, hJ, hm, hcus, hpos, hall⟩ := C84_objective b hR hh
  set M := ∑ i, ∑ j, |D0 i j| with hM
  have hM0 : 0 ≤ M := Finset.sum_nonneg fun i _ => Finset.sum_nonneg fun j _ => abs_nonneg _
  have hM1 : 0 < M + 1 := by linarith
  set D : Matrix (Fin 4) (Fin 4) ℝ := (M + 1)⁻¹ • D0 with hD
  have hDs : Dᵀ = D := by rw [hD, transpose_smul, hD0]
  have hle : ∀ i j, |D i j| ≤ 1 := by
    intro i j
    rw [hD, Matrix.smul_apply, smul_eq_mul, abs_mul, abs_of_pos (inv_pos.mpr hM1), inv_mul_le_iff₀ hM1, mul_one]
    have h1 : |D0 i j| ≤ ∑ j, |D0 i j| := Finset.single_le_sum (f := fun j => |D0 i j|) (fun _ _ => abs_nonneg _)
      (Finset.mem_univ j)
    have h2 : ∑ j, |D0 i j| ≤ M := Finset.single_le_sum (f := fun i => ∑ j, |D0 i j|)
      (fun _ _ => Finset.sum_nonneg fun _ _ => abs_nonneg _) (Finset.mem_univ i)
    linarith
  have hun : unvech (vech D) = .ok ⟨4, D⟩ := C01_unvech_vech (by norm_num) D fun i j => (congrFun (congrFun hDs i) j).symm
  refine ⟨vech D, ?_, ?_, (D * J).trace, ?_, ?_⟩
  · have := (C01_vech_unvech _ 4 D hun).2.2.2
    omega
  · intro x hx
    unfold vech at hx
    obtain ⟨ij, -, rfl⟩ := List.mem_map.mp hx
    exact hle _ _
  · rw [hD, Matrix.smul_mul, trace_smul, smul_eq_mul]
    exact mul_pos (inv_pos.mpr hM1) hpos
  · intro tol solve hs Dvecs hmem hlen data h
    obtain ⟨b1, b2⟩ := box_builders b hR
    obtain ⟨l2, l3, lc, key⟩ := drip_data (b1 2 (by norm_num)) (b1 3 (by norm_num)) b2 hlen h
    have hne : data.customValues ≠ [] := by
      rintro e
      rw [e] at lc
      rw [List.length_eq_zero_iff.mp lc.symm] at hmem
      cases hmem
    obtain ⟨r, hr, -, -, hm3, hm2⟩ := (C97_report data (l2.trans lc.symm) (l3.trans lc.symm)).2 hne
    obtain ⟨k, hk, hkD⟩ := List.mem_iff_getElem.mp hmem
    obtain ⟨D', v2, v3, vc, d1, -, d3, d4, d5, d6, d7, d8⟩ := key k hk
    rw [hkD, hun] at d1
    obtain rfl : D = D' := by
      have := Except.ok.inj d1
      simpa using this
    obtain ⟨s2, m2, n2⟩ := hs _ _ d6
    obtain ⟨s3, m3, n3⟩ := hs _ _ d7
    obtain ⟨sc, mc, nc⟩ := hs _ _ d8
    have hc : (D * J).trace ≤ sc := mc.1 ⟨J, hJ, hm, hcus, rfl⟩
    have hz : ∀ d, 2 ≤ d → (0 : ℝ) ∈ upperBounds (dripSet (fun J => Py.Holds (b.momentSdpConstraints (.mat J) 0 d)) D) := by
      rintro d hd _ ⟨J', h1, h2, h3, rfl⟩
      have := hall J' 0 d h1.1 le_rfl hd h3
      rw [hD, Matrix.smul_mul, trace_smul, smul_eq_mul]
      exact mul_nonpos_of_nonneg_of_nonpos (inv_pos.mpr hM1).le this
    have h2 := m2.2 (hz 2 le_rfl)
    have h3 := m3.2 (hz 3 (by norm_num))
    refine ⟨r, hr, (hm3.2 ⟨k, v3, vc, d4, d5, rfl⟩).trans ?_, (hm2.2 ⟨k, v2, vc, d3, d5, rfl⟩).trans ?_⟩
    · linarith [(abs_le.mp n3).2, (abs_le.mp nc).1]
    · linarith [(abs_le.mp n2).2, (abs_le.mp nc).1]

/-- The solver that returns the supremum meets both contracts, and the shapes of the script meet the hypotheses. -/
example : ∃ solve : Set ℝ → Py ℝ, Spec.Solves 0 solve ∧ Spec.Complete solve := by
  classical
  refine ⟨fun S => if S.Nonempty ∧ BddAbove S then .ok (sSup S) else .error .assertion, fun S v h => ?_, fun S h1 h2 => ?_⟩
  · dsimp only at h
    split_ifs at h with hS
    obtain rfl := Except.ok.inj h
    exact ⟨_, isLUB_csSup hS.1 hS.2, by simp⟩
  · exact ⟨_, if_pos ⟨h1, h2⟩⟩

example : Spec.Orthogonal (⟨1, 1 / 2, 1, 0⟩ : Cylinder ℝ).rotation ∧ Spec.Resolved (⟨1, 1 / 2, 1, 0⟩ : Cylinder ℝ).radius ∧
    (0 : ℝ) < (⟨1, 1 / 2, 1, 0⟩ : Cylinder ℝ).length ∧ ∀ i, (0 : ℝ) < (⟨![1 / 2, 1, 3 / 2], 1, 0⟩ : Box ℝ).halfExtents i := by
  refine ⟨Spec.Orthogonal.one, Or.inr (by norm_num), by norm_num, fun i => ?_⟩
  fin_cases i <;> norm_num

end Rigeo
