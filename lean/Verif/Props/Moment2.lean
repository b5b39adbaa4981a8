import Verif.Props.Moment
import Verif.Spec.Moment
import Mathlib.Tactic.NormNum

/-!
# Moment matrices (C22 to C24)
-/

namespace Rigeo

open Matrix

section Basis
variable {n d : ℕ}

theorem basis_get (hd : 1 ≤ d) {i : ℕ} (hi : i < Polynomial.dim n d) :
    (Polynomial.basis n d)[i]? = some (some (MomentMatrix.basisIdx n d i)) := by
  have hl : i < (Polynomial.basis n d).length := by rw [C20_length]; exact hi
  unfold MomentMatrix.basisIdx
  obtain ⟨L, hL, -, -⟩ := C20_basis n d hd
  have hl' : i < L.length := by rw [hL] at hl; simpa using hl
  rw [hL]
  simp [hl']

theorem basisIdx_deg (hd : 1 ≤ d) {i : ℕ} (hi : i < Polynomial.dim n d) :
    ∑ k, MomentMatrix.basisIdx n d i k ≤ d := by
  have h := basis_get (n := n) hd hi
  obtain ⟨L, hL, -, h3⟩ := C20_basis n d hd
  have := List.mem_of_getElem? h
  rw [hL] at this
  obtain ⟨α, hα, e⟩ := List.mem_map.mp this
  rw [← h3, ← Option.some.inj e]
  exact hα

theorem basisIdx_surj (hd : 1 ≤ d) (α : Fin n → ℕ) (hα : ∑ k, α k ≤ d) :
    ∃ i : Fin (Polynomial.dim n d), MomentMatrix.basisIdx n d i = α := by
  obtain ⟨L, hL, -, h3⟩ := C20_basis n d hd
  obtain ⟨i, hi⟩ := List.mem_iff_getElem?.mp ((h3 α).mpr hα)
  have hlen : i < Polynomial.dim n d := by
    rw [← C20_length, hL, List.length_map]
    obtain ⟨h, -⟩ := List.getElem?_eq_some_iff.mp hi
    exact h
  refine ⟨⟨i, hlen⟩, ?_⟩
  have h := basis_get (n := n) hd hlen
  rw [hL, List.getElem?_map, hi] at h
  simpa using h.symm

theorem dim_mono (n : ℕ) {d' d : ℕ} (h : d' ≤ d) : Polynomial.dim n d' ≤ Polynomial.dim n d := by
  have h1 := cwrSums_length n d'
  have h2 := cwrSums_length n d
  have := (cwrSums_prefix (units (List.finRange n)) h).length_le
  rwa [h1, h2] at this

theorem basisIdx_low (hd : 1 ≤ d) {d' : ℕ} (hdd : d' ≤ d) {i : ℕ} (hi : i < Polynomial.dim n d') :
    ∑ k, MomentMatrix.basisIdx n d i k ≤ d' := by
  have hi' : i < Polynomial.dim n d := hi.trans_le (dim_mono n hdd)
  have h := basis_get (n := n) hd hi'
  rw [basis_eq n d hd, List.getElem?_map] at h
  have hl : i < (cwrSums (0 :: units (List.finRange n)) d').length := by rw [cwrSums_length]; exact hi
  have hp := cwrSums_prefix (units (List.finRange n)) hdd
  have hg : (cwrSums (0 :: units (List.finRange n)) d)[i]? = some (cwrSums (0 :: units (List.finRange n)) d')[i] := by
    obtain ⟨t, ht⟩ := hp
    rw [← ht, List.getElem?_append_left hl]
    exact List.getElem?_eq_getElem hl
  rw [hg] at h
  have e : (cwrSums (0 :: units (List.finRange n)) d')[i] = MomentMatrix.basisIdx n d i := by
    simpa using h
  rw [← e]
  exact ((mem_cwrSums_basis _ _ (List.nodup_finRange n) _).mp (List.getElem_mem hl)).2

theorem exists_le_sum (α : Fin n → ℕ) (k : ℕ) (hk : k ≤ ∑ i, α i) : ∃ β : Fin n → ℕ, β ≤ α ∧ ∑ i, β i = k := by
  induction k with
  | zero => exact ⟨0, fun i => Nat.zero_le _, by simp⟩
  | succ k ih =>
    obtain ⟨β, hβ, hs⟩ := ih (by omega)
    have : ∃ i, β i < α i := by
      by_contra hne
      push Not at hne
      have := Finset.sum_le_sum fun i (_ : i ∈ Finset.univ) => hne i
      omega
    obtain ⟨i, hi⟩ := this
    refine ⟨β + Pi.single i 1, fun j => ?_, ?_⟩
    · by_cases hj : j = i
      · subst hj; simpa using hi
      · simpa [hj] using hβ j
    · simp [Finset.sum_add_distrib, hs]

theorem split_degree (d : ℕ) (α : Fin n → ℕ) (hα : ∑ i, α i ≤ 2 * d) :
    ∃ β γ : Fin n → ℕ, α = β + γ ∧ ∑ i, β i ≤ d ∧ ∑ i, γ i ≤ d := by
  obtain ⟨β, h1, h2⟩ := exists_le_sum α (min d (∑ i, α i)) (min_le_right _ _)
  have e : α = β + (α - β) := by
    ext i; exact (Nat.add_sub_cancel' (h1 i)).symm
  refine ⟨β, α - β, e, by omega, ?_⟩
  have := congrArg (fun f : Fin n → ℕ => ∑ i, f i) e
  simp only [Pi.add_apply, Finset.sum_add_distrib] at this
  omega

theorem mem_upperPairs {r : ℕ} (i j : Fin r) : (i, j) ∈ MomentMatrix.upperPairs r ↔ i ≤ j := by
  simp [MomentMatrix.upperPairs]

theorem indices_comm (n d i j : ℕ) : MomentMatrix.indices n d i j = MomentMatrix.indices n d j i := add_comm _ _

theorem exists_indices (hd : 1 ≤ d) (α : Fin n → ℕ) (hα : ∑ i, α i ≤ 2 * d) :
    ∃ i j : Fin (Polynomial.dim n d), i ≤ j ∧ MomentMatrix.indices n d i j = α := by
  obtain ⟨β, γ, rfl, hβ, hγ⟩ := split_degree d α hα
  obtain ⟨i, hi⟩ := basisIdx_surj hd β hβ
  obtain ⟨j, hj⟩ := basisIdx_surj hd γ hγ
  rcases le_total i j with h | h
  · exact ⟨i, j, h, by rw [MomentMatrix.indices, hi, hj]⟩
  · exact ⟨j, i, h, by rw [MomentMatrix.indices, hi, hj, add_comm]⟩

theorem indices_deg (hd : 1 ≤ d) (i j : Fin (Polynomial.dim n d)) :
    ∑ k, MomentMatrix.indices n d i j k ≤ 2 * d := by
  have h1 := basisIdx_deg (n := n) hd i.2
  have h2 := basisIdx_deg (n := n) hd j.2
  simp only [MomentMatrix.indices, Pi.add_apply, Finset.sum_add_distrib]
  omega

variable {K : Type} [Field K]

/-- What the variable map stores: for every multi-index of degree at most `2 d` one of the entries with
that index. -/
theorem varMap_get (hd : 1 ≤ d) (M : Matrix (Fin (Polynomial.dim n d)) (Fin (Polynomial.dim n d)) K)
    (α : Fin n → ℕ) (hα : ∑ i, α i ≤ 2 * d) :
    ∃ i j : Fin (Polynomial.dim n d), i ≤ j ∧ MomentMatrix.indices n d i j = α ∧
      dictGet (MomentMatrix.computeVarMap n d M) α = some (M i j) := by
  unfold MomentMatrix.computeVarMap
  rcases dictGet_foldl (fun ij : Fin (Polynomial.dim n d) × Fin (Polynomial.dim n d) =>
      MomentMatrix.indices n d ij.1 ij.2) (fun ij => M ij.1 ij.2) (MomentMatrix.upperPairs _) [] α with
    ⟨-, h⟩ | ⟨⟨i, j⟩, hm, h1, h2⟩
  · obtain ⟨i, j, hij, e⟩ := exists_indices hd α hα
    exact absurd e (h (i, j) ((mem_upperPairs i j).mpr hij))
  · exact ⟨i, j, (mem_upperPairs i j).mp hm, h1, h2⟩

theorem momentConstraints_ok (hd : 1 ≤ d) (M : Matrix (Fin (Polynomial.dim n d)) (Fin (Polynomial.dim n d)) K) :
    MomentMatrix.momentConstraints n d M = .ok (∀ ij ∈ MomentMatrix.upperPairs (Polynomial.dim n d),
      dictGet (MomentMatrix.computeVarMap n d M) (MomentMatrix.indices n d ij.1 ij.2) = some (M ij.1 ij.2)) := by
  unfold MomentMatrix.momentConstraints
  simp only
  rw [if_pos]
  rw [List.all_eq_true]
  intro ij _
  obtain ⟨i, j, -, -, h⟩ := varMap_get hd M _ (indices_deg hd ij.1 ij.2)
  rw [h]; rfl

theorem IsMomentMatrix_iff (hd : 1 ≤ d) (y : (Fin n → ℕ) → K)
    (M : Matrix (Fin (Polynomial.dim n d)) (Fin (Polynomial.dim n d)) K) :
    Spec.IsMomentMatrix d y M ↔ ∀ i j, M i j = y (MomentMatrix.indices n d i j) := by
  constructor
  · intro h i j
    exact h i j _ _ (basis_get hd i.2) (basis_get hd j.2)
  · intro h i j α β hα hβ
    rw [basis_get hd i.2] at hα
    rw [basis_get hd j.2] at hβ
    rw [h i j, MomentMatrix.indices]
    simp only [Option.some.injEq] at hα hβ
    rw [hα, hβ]

/-- C24: a symmetric matrix satisfies `moment_constraints` exactly when its entries depend on the product
of the two basis monomials only, that is, when it is the moment matrix of some sequence `y`. -/
theorem C24_structure (hd : 1 ≤ d) (M : Matrix (Fin (Polynomial.dim n d)) (Fin (Polynomial.dim n d)) K)
    (hM : Mᵀ = M) :
    ∃ c, MomentMatrix.momentConstraints n d M = .ok c ∧
      (c ↔ ∃ y : (Fin n → ℕ) → K, Spec.IsMomentMatrix d y M) := by
  refine ⟨_, momentConstraints_ok hd M, ?_⟩
  have hs : ∀ i j, M i j = M j i := fun i j => congrFun (congrFun hM j) i
  constructor
  · intro h
    refine ⟨fun α => (dictGet (MomentMatrix.computeVarMap n d M) α).getD 0, ?_⟩
    rw [IsMomentMatrix_iff hd]
    intro i j
    rcases le_total i j with hij | hij
    · rw [h (i, j) ((mem_upperPairs i j).mpr hij)]; rfl
    · rw [hs, indices_comm, h (j, i) ((mem_upperPairs j i).mpr hij)]; rfl
  · rintro ⟨y, hy⟩ ⟨i, j⟩ hij
    rw [IsMomentMatrix_iff hd] at hy
    obtain ⟨k, l, -, h1, h2⟩ := varMap_get hd M _ (indices_deg hd i j)
    rw [h2, hy k l, h1, hy i j]

end Basis

section Field
variable {K : Type} [Field K] [LinearOrder K] [IsStrictOrderedRing K] {n d : ℕ}

theorem integral_add (s : Spec.PointMasses K n) (f g : (Fin n → K) → K) :
    s.integral (fun x => f x + g x) = s.integral f + s.integral g := by
  unfold Spec.PointMasses.integral
  rw [← List.sum_map_add]
  congr 1
  exact List.map_congr_left fun mp _ => by ring

theorem integral_smul (s : Spec.PointMasses K n) (a : K) (f : (Fin n → K) → K) :
    s.integral (fun x => a * f x) = a * s.integral f := by
  unfold Spec.PointMasses.integral
  rw [← List.sum_map_mul_left]
  congr 1
  exact List.map_congr_left fun mp _ => by ring

theorem integral_zero (s : Spec.PointMasses K n) : s.integral (fun _ => 0) = 0 := by
  simp [Spec.PointMasses.integral]

theorem mono_add (α β : Fin n → ℕ) (x : Fin n → K) : Spec.mono (α + β) x = Spec.mono α x * Spec.mono β x := by
  simp [Spec.mono, pow_add, Finset.prod_mul_distrib]

/-- A substitution that knows every monomial of the polynomial. -/
theorem substitute_ok (p : Polynomial K n) (m : List ((Fin n → ℕ) × K)) (y : (Fin n → ℕ) → K)
    (h : ∀ kc ∈ p.coefficients, dictGet m kc.1 = some (y kc.1)) :
    p.substitute m = .ok (p.coefficients.map fun kc => kc.2 * y kc.1).sum := by
  unfold Polynomial.substitute
  have hm : ∀ (f : (Fin n → ℕ) × K → Py K) (l : List ((Fin n → ℕ) × K)),
      (∀ kc ∈ l, f kc = .ok (kc.2 * y kc.1)) → l.mapM f = .ok (l.map fun kc => kc.2 * y kc.1) := by
    intro f l
    induction l with
    | nil => intro _; rfl
    | cons kc l ih =>
      intro hl
      rw [List.mapM_cons, hl kc (by simp), ih fun x hx => hl x (by simp [hx])]
      rfl
  rw [hm _ _ fun kc hkc => by simp only [h kc hkc]]
  rfl

/-- C22: substituting the moments of a system of point masses gives the integral of the polynomial. -/
theorem C22_substitute (hd : 1 ≤ d) (s : Spec.PointMasses K n)
    (M : Matrix (Fin (Polynomial.dim n d)) (Fin (Polynomial.dim n d)) K)
    (hM : Spec.IsMomentMatrix d (fun α => s.integral (Spec.mono α)) M) (p : Polynomial K n)
    (hp : ∀ kc ∈ p.coefficients, ∑ i, kc.1 i ≤ 2 * d) :
    p.substitute (MomentMatrix.computeVarMap n d M) = .ok (s.integral p.evaluate) := by
  rw [IsMomentMatrix_iff hd] at hM
  rw [substitute_ok p _ fun α => s.integral (Spec.mono α)]
  · congr 1
    unfold Polynomial.evaluate
    induction p.coefficients with
    | nil => simp [integral_zero]
    | cons kc l ih =>
      simp only [List.map_cons, List.sum_cons, ih]
      rw [← integral_smul, ← integral_add]
      rfl
  · intro kc hkc
    obtain ⟨i, j, -, h1, h2⟩ := varMap_get hd M _ (hp kc hkc)
    rw [h2, hM, h1]

/-- Half degrees: `deg ≤ 2 v`, and `v` is the smallest such number. -/
theorem halfDegree_spec (deg : ℕ) : deg ≤ 2 * MomentMatrix.halfDegree deg ∧ 2 * MomentMatrix.halfDegree deg ≤ deg + 1 := by
  unfold MomentMatrix.halfDegree
  split_ifs <;> omega

theorem localize_deg (hd : 1 ≤ d) (p : Polynomial K n) (hp : p.WF) {D : ℕ} (hD : p.degree = .ok D)
    (hv : MomentMatrix.halfDegree D ≤ d) (i j : Fin (Polynomial.dim n (d - MomentMatrix.halfDegree D))) :
    ∀ kc ∈ (MomentMatrix.localizingEntry n d p i j).coefficients, ∑ k, kc.1 k ≤ 2 * d := by
  intro kc hkc
  rw [MomentMatrix.localizingEntry, localize_coefficients p hp] at hkc
  obtain ⟨kc', hk, rfl⟩ := List.mem_map.mp hkc
  have h1 := basisIdx_low (n := n) hd (Nat.sub_le d (MomentMatrix.halfDegree D)) i.2
  have h2 := basisIdx_low (n := n) hd (Nat.sub_le d (MomentMatrix.halfDegree D)) j.2
  have h3 : ∑ k, kc'.1 k ≤ D := by
    by_cases h0 : p.coefficients = []
    · rw [h0] at hk; simp at hk
    · obtain ⟨D', hD', h, -⟩ := (C21_degree p).2 h0
      rw [hD] at hD'
      obtain rfl := Except.ok.inj hD'
      exact h kc' hk
  have h4 := (halfDegree_spec D).1
  simp only [MomentMatrix.indices, Pi.add_apply, Finset.sum_add_distrib]
  omega

/-- C22: building a localizing matrix of order `d - ceil(deg / 2)` never runs into a missing moment,
whatever the matrix is. -/
theorem C22_no_key_error (hd : 1 ≤ d) (M : Matrix (Fin (Polynomial.dim n d)) (Fin (Polynomial.dim n d)) K)
    (p : Polynomial K n) (hp : p.WF) {D : ℕ} (hD : p.degree = .ok D) (hv : D ≤ 2 * d) :
    ∃ L : Matrix (Fin (Polynomial.dim n (d - (D + 1) / 2))) (Fin (Polynomial.dim n (d - (D + 1) / 2))) K,
      MomentMatrix.localize n d M p = .ok ⟨_, L⟩ ∧
      ∀ i j : Fin (Polynomial.dim n (d - (D + 1) / 2)),
        (MomentMatrix.localizingEntry n d p i j).substitute (MomentMatrix.computeVarMap n d M) = .ok (L i j) := by
  have hh : MomentMatrix.halfDegree D = (D + 1) / 2 := by
    unfold MomentMatrix.halfDegree; split_ifs <;> omega
  rw [← hh]
  have hv' : MomentMatrix.halfDegree D ≤ d := by rw [hh]; omega
  have hsub : ∀ i j : Fin (Polynomial.dim n (d - MomentMatrix.halfDegree D)),
      ∃ x, (MomentMatrix.localizingEntry n d p i j).substitute (MomentMatrix.computeVarMap n d M) = .ok x := by
    intro i j
    refine ⟨_, substitute_ok _ _ (fun α => (dictGet (MomentMatrix.computeVarMap n d M) α).getD 0) ?_⟩
    intro kc hkc
    obtain ⟨_, _, -, -, h⟩ := varMap_get hd M _ (localize_deg hd p hp hD hv' i j kc hkc)
    rw [h]; rfl
  choose L hL using hsub
  refine ⟨Matrix.of L, ?_, hL⟩
  unfold MomentMatrix.localize
  simp only [hD, bind, Except.bind, Nat.not_lt.mpr hv', if_false, hL, pure, Except.pure]
  rw [if_pos]
  · rfl
  · intro i j; rfl

/-- The matrix of moments of a system of point masses is a sum of squares of monomial vectors. -/
theorem moment_psd (s : Spec.PointMasses K n) (hs : s.Nonneg) {r : ℕ} (b : Fin r → (Fin n → K) → K)
    (q : (Fin n → K) → K) (hq : ∀ mp ∈ s, 0 ≤ q mp.2) (L : Matrix (Fin r) (Fin r) K)
    (hL : ∀ i j, L i j = s.integral fun x => b i x * b j x * q x) : Spec.PSD L := by
  have e : L = (s.map fun mp => (mp.1 * q mp.2) • outer (fun i => b i mp.2) (fun i => b i mp.2)).sum := by
    ext i j
    rw [hL, Spec.PointMasses.integral]
    clear hL hs hq
    induction s with
    | nil => simp
    | cons mp s ih =>
      simp only [List.map_cons, List.sum_cons, Matrix.add_apply, ih, Matrix.smul_apply, outer_apply, smul_eq_mul]
      ring
  rw [e]
  refine Spec.PSD.list_sum _ fun X hX => ?_
  obtain ⟨mp, hmp, rfl⟩ := List.mem_map.mp hX
  exact (Spec.PSD.outer _).smul (mul_nonneg (hs mp hmp) (hq mp hmp))

/-- C23: the matrix of the moments of a system of non-negative point masses satisfies
`moment_constraints` and is PSD. -/
theorem C23_moment_matrix (hd : 1 ≤ d) (s : Spec.PointMasses K n) (hs : s.Nonneg)
    (M : Matrix (Fin (Polynomial.dim n d)) (Fin (Polynomial.dim n d)) K)
    (hM : Spec.IsMomentMatrix d (fun α => s.integral (Spec.mono α)) M) :
    Py.Holds (MomentMatrix.momentConstraints n d M) ∧ Spec.PSD M := by
  have hM' := (IsMomentMatrix_iff hd _ M).mp hM
  have hpsd : Spec.PSD M := by
    refine moment_psd s hs (fun i => Spec.mono (MomentMatrix.basisIdx n d i)) (fun _ => 1)
      (fun _ _ => zero_le_one) M fun i j => ?_
    rw [hM']
    congr 1
    funext x
    rw [MomentMatrix.indices, mono_add, mul_one]
  obtain ⟨c, h1, h2⟩ := C24_structure hd M hpsd.1
  exact ⟨⟨c, h1, h2.mpr ⟨_, hM⟩⟩, hpsd⟩

/-- C23: its localizing matrix for a polynomial `p` that is non-negative at the points consists of the
integrals of `p` times the products of basis monomials, it is PSD, and `localizing_constraints` holds. -/
theorem C23_localizing (hd : 1 ≤ d) (s : Spec.PointMasses K n) (hs : s.Nonneg)
    (M : Matrix (Fin (Polynomial.dim n d)) (Fin (Polynomial.dim n d)) K)
    (hM : Spec.IsMomentMatrix d (fun α => s.integral (Spec.mono α)) M)
    (p : Polynomial K n) (hp : p.WF) {D : ℕ} (hD : p.degree = .ok D) (hv : D ≤ 2 * d)
    (hpos : ∀ mp ∈ s, 0 ≤ p.evaluate mp.2) :
    (∃ L : Matrix (Fin (Polynomial.dim n (d - (D + 1) / 2))) (Fin (Polynomial.dim n (d - (D + 1) / 2))) K,
      MomentMatrix.localize n d M p = .ok ⟨_, L⟩ ∧ Spec.PSD L ∧
      ∀ (i j : Fin (Polynomial.dim n (d - (D + 1) / 2))) (α β : Fin n → ℕ),
        (Polynomial.basis n d)[(i : ℕ)]? = some (some α) → (Polynomial.basis n d)[(j : ℕ)]? = some (some β) →
          L i j = s.integral fun x => Spec.mono α x * Spec.mono β x * p.evaluate x) ∧
    Py.Holds (MomentMatrix.localizingConstraint n d M p) := by
  obtain ⟨L, hL, hL'⟩ := C22_no_key_error hd M p hp hD hv
  have hh : MomentMatrix.halfDegree D = (D + 1) / 2 := by
    unfold MomentMatrix.halfDegree; split_ifs <;> omega
  have hval : ∀ i j, L i j = s.integral fun x => Spec.mono (MomentMatrix.basisIdx n d i) x *
      Spec.mono (MomentMatrix.basisIdx n d j) x * p.evaluate x := by
    intro i j
    have hdeg := localize_deg hd p hp hD (by rw [hh]; omega) (Fin.cast (by rw [hh]) i) (Fin.cast (by rw [hh]) j)
    have := C22_substitute hd s M hM (MomentMatrix.localizingEntry n d p i j) hdeg
    rw [hL'] at this
    rw [Except.ok.inj this]
    congr 1
    funext x
    rw [MomentMatrix.localizingEntry, (C21_localize p hp _ x).2]
    congr 1
    exact mono_add _ _ x
  have hpsd : Spec.PSD L := moment_psd s hs _ p.evaluate hpos L hval
  refine ⟨⟨L, hL, hpsd, ?_⟩, ?_⟩
  · intro i j α β hα hβ
    have hlt : ∀ i : Fin (Polynomial.dim n (d - (D + 1) / 2)), (i : ℕ) < Polynomial.dim n d :=
      fun i => i.2.trans_le (dim_mono n (Nat.sub_le _ _))
    rw [basis_get hd (hlt i)] at hα
    rw [basis_get hd (hlt j)] at hβ
    simp only [Option.some.injEq] at hα hβ
    rw [hval, hα, hβ]
  · unfold MomentMatrix.localizingConstraint
    rw [hL]
    exact ⟨_, rfl, L, hpsd, fun _ _ => rfl⟩

example : ∃ (s : Spec.PointMasses ℚ 3) (p : Polynomial ℚ 3), s.Nonneg ∧ p.WF ∧ p.degree = .ok 1 ∧
    ∀ mp ∈ s, 0 ≤ p.evaluate mp.2 := by
  refine ⟨[(1, ![1, 0, 0]), (2, 0)], Polynomial.affine ![1, 1, 0] 1, ?_, (C21_affine _ _ 0).1, by decide +kernel, ?_⟩
  · intro mp h; simp at h; rcases h with rfl | rfl <;> norm_num
  · intro mp h
    rw [(C21_affine _ _ _).2]
    simp at h
    rcases h with rfl | rfl <;> simp

end Field
end Rigeo
