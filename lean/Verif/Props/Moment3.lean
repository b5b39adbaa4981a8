import Verif.Props.Realize4

/-!
# The relaxations say exactly that a pseudo-moment sequence exists (C24, C52, C55)
-/

namespace Rigeo

open Matrix

theorem mem_multiIndices {n d : ℕ} (α : Fin n → ℕ) : α ∈ Spec.multiIndices n d ↔ ∑ i, α i ≤ d := by
  unfold Spec.multiIndices
  rw [Finset.mem_filter, Fintype.mem_piFinset]
  refine ⟨fun h => h.2, fun h => ⟨fun i => ?_, h⟩⟩
  have := Finset.single_le_sum (fun j _ => Nat.zero_le (α j)) (Finset.mem_univ i)
  rw [Finset.mem_range]; omega

theorem basisIdx_prefix {n d d' : ℕ} (hd : 1 ≤ d) (hdd : d' ≤ d) {i : ℕ} (hi : i < Polynomial.dim n d') :
    (cwrSums (0 :: units (List.finRange n)) d')[i]? = some (MomentMatrix.basisIdx n d i) := by
  have hi' : i < Polynomial.dim n d := hi.trans_le (dim_mono n hdd)
  have h := basis_get (n := n) hd hi'
  rw [basis_eq n d hd, List.getElem?_map] at h
  have hl : i < (cwrSums (0 :: units (List.finRange n)) d').length := by rw [cwrSums_length]; exact hi
  obtain ⟨t, ht⟩ := cwrSums_prefix (units (List.finRange n)) hdd
  rw [← ht, List.getElem?_append_left hl] at h
  cases hc : (cwrSums (0 :: units (List.finRange n)) d')[i]? with
  | none => rw [hc] at h; simp at h
  | some x => rw [hc] at h; simpa using h

theorem image_basisIdx {n d d' : ℕ} (hd : 1 ≤ d) (hdd : d' ≤ d) :
    Finset.univ.image (fun i : Fin (Polynomial.dim n d') => MomentMatrix.basisIdx n d i) = Spec.multiIndices n d' := by
  ext α
  rw [mem_multiIndices, Finset.mem_image]
  constructor
  · rintro ⟨i, -, rfl⟩
    exact basisIdx_low hd hdd i.2
  · intro h
    have hm : α ∈ cwrSums (0 :: units (List.finRange n)) d' := by
      rw [mem_cwrSums_basis _ _ (List.nodup_finRange n)]; simpa using h
    obtain ⟨i, hi⟩ := List.mem_iff_getElem?.mp hm
    have hlen : i < Polynomial.dim n d' := by
      obtain ⟨h, -⟩ := List.getElem?_eq_some_iff.mp hi
      rwa [cwrSums_length] at h
    refine ⟨⟨i, hlen⟩, Finset.mem_univ _, ?_⟩
    rw [basisIdx_prefix hd hdd hlen] at hi
    exact Option.some.inj hi

theorem basisIdx_inj {n d d' : ℕ} (hd : 1 ≤ d) (hdd : d' ≤ d) :
    Function.Injective (fun i : Fin (Polynomial.dim n d') => MomentMatrix.basisIdx n d i) := by
  intro i j h
  have hi := basisIdx_prefix hd hdd i.2
  have hj := basisIdx_prefix hd hdd j.2
  simp only at h
  rw [h, ← hj] at hi
  have hl : (i : ℕ) < (cwrSums (0 :: units (List.finRange n)) d').length := by rw [cwrSums_length]; exact i.2
  have := (List.getElem?_inj hl (cwrSums_basis_nodup _ _ (List.nodup_finRange n))).mp hi
  exact Fin.ext this

section Field
variable {K : Type} [Field K] [LinearOrder K] [IsStrictOrderedRing K] {n d : ℕ}

/-- A matrix indexed by basis positions is PSD iff the form over multi-indices is non-negative. -/
theorem psd_iff_multi {d' : ℕ} (hd : 1 ≤ d) (hdd : d' ≤ d) (z : (Fin n → ℕ) → K)
    (L : Matrix (Fin (Polynomial.dim n d')) (Fin (Polynomial.dim n d')) K)
    (hL : ∀ i j, L i j = z (MomentMatrix.indices n d i j)) :
    Spec.PSD L ↔ ∀ q : (Fin n → ℕ) → K,
      0 ≤ ∑ α ∈ Spec.multiIndices n d', ∑ β ∈ Spec.multiIndices n d', q α * q β * z (α + β) := by
  have hsum : ∀ q : (Fin n → ℕ) → K,
      ∑ α ∈ Spec.multiIndices n d', ∑ β ∈ Spec.multiIndices n d', q α * q β * z (α + β) =
        (fun i : Fin (Polynomial.dim n d') => q (MomentMatrix.basisIdx n d i)) ⬝ᵥ
          (L *ᵥ fun i : Fin (Polynomial.dim n d') => q (MomentMatrix.basisIdx n d i)) := by
    intro q
    rw [← image_basisIdx hd hdd, Finset.sum_image fun i _ j _ h => basisIdx_inj hd hdd h]
    simp only [dotProduct, mulVec, Finset.mul_sum]
    refine Finset.sum_congr rfl fun i _ => ?_
    rw [Finset.sum_image fun i _ j _ h => basisIdx_inj hd hdd h]
    refine Finset.sum_congr rfl fun j _ => ?_
    rw [hL, MomentMatrix.indices]; ring
  constructor
  · intro h q
    rw [hsum]; exact h.2 _
  · intro h
    refine ⟨?_, fun v => ?_⟩
    · ext i j
      rw [transpose_apply, hL, hL, indices_comm]
    · have := h (fun α => if hα : ∃ i : Fin (Polynomial.dim n d'), MomentMatrix.basisIdx n d i = α
        then v hα.choose else 0)
      rw [hsum] at this
      convert this using 1
      have e : (fun i : Fin (Polynomial.dim n d') => if hα : ∃ k : Fin (Polynomial.dim n d'),
          MomentMatrix.basisIdx n d k = MomentMatrix.basisIdx n d i then v hα.choose else 0) = v := by
        funext i
        have hα : ∃ k : Fin (Polynomial.dim n d'),
          MomentMatrix.basisIdx n d k = MomentMatrix.basisIdx n d i := ⟨i, rfl⟩
        rw [dif_pos hα]
        congr 1
        exact basisIdx_inj hd hdd hα.choose_spec
      rw [e]

theorem varMap_moment (hd : 1 ≤ d) (y : (Fin n → ℕ) → K)
    (M : Matrix (Fin (Polynomial.dim n d)) (Fin (Polynomial.dim n d)) K) (hM : Spec.IsMomentMatrix d y M)
    (α : Fin n → ℕ) (hα : ∑ i, α i ≤ 2 * d) : dictGet (MomentMatrix.computeVarMap n d M) α = some (y α) := by
  rw [IsMomentMatrix_iff hd] at hM
  obtain ⟨i, j, -, h1, h2⟩ := varMap_get hd M α hα
  rw [h2, hM, h1]

/-- C24: on the moment matrix of a sequence `y`, `localizing_constraints` for a polynomial `p` says exactly
that `q ↦ L(p q²)` is non-negative for all `q` of degree at most `d - ceil(deg p / 2)`. -/
theorem C24_localizing (hd : 1 ≤ d) (y : (Fin n → ℕ) → K)
    (M : Matrix (Fin (Polynomial.dim n d)) (Fin (Polynomial.dim n d)) K) (hM : Spec.IsMomentMatrix d y M)
    (p : Polynomial K n) (hp : p.WF) {D : ℕ} (hD : p.degree = .ok D) (hv : D ≤ 2 * d) :
    ∃ c, MomentMatrix.localizingConstraint n d M p = .ok c ∧
      (c ↔ Spec.LocalizedPSD (d - (D + 1) / 2) p.coefficients y) := by
  have hh : MomentMatrix.halfDegree D = (D + 1) / 2 := by
    unfold MomentMatrix.halfDegree; split_ifs <;> omega
  obtain ⟨L, hL, hL'⟩ := C22_no_key_error hd M p hp hD hv
  refine ⟨_, by rw [MomentMatrix.localizingConstraint, hL]; rfl, ?_⟩
  have hval : ∀ i j : Fin (Polynomial.dim n (d - (D + 1) / 2)), L i j =
      (p.coefficients.map fun t => t.2 * y (t.1 + MomentMatrix.indices n d i j)).sum := by
    intro i j
    have hdeg := localize_deg hd p hp hD (by rw [hh]; omega) (Fin.cast (by rw [hh]) i) (Fin.cast (by rw [hh]) j)
    have h1 := hL' i j
    simp only [Fin.val_cast] at hdeg
    rw [substitute_ok _ _ y fun kc hkc => varMap_moment hd y M hM _ (hdeg kc hkc)] at h1
    rw [← Except.ok.inj h1, MomentMatrix.localizingEntry, localize_coefficients p hp, List.map_map]
    rfl
  have : (∃ L_1 : Matrix (Fin (Polynomial.dim n (d - (D + 1) / 2))) (Fin (Polynomial.dim n (d - (D + 1) / 2))) K,
      cvxPsdVar L_1 ∧ ∀ i j, L_1 i j = L i j) ↔ Spec.PSD L := by
    constructor
    · rintro ⟨L', h1, h2⟩
      have : L' = L := Matrix.ext h2
      rw [← this]; exact h1
    · intro h
      exact ⟨L, h, fun _ _ => rfl⟩
  rw [this, psd_iff_multi hd (Nat.sub_le _ _)
    (fun α => (p.coefficients.map fun t => t.2 * y (t.1 + α)).sum) L hval]
  rfl

/-- The pseudo-moment sequences of the relaxation of order `d` with the polynomials `ps`, for a body with
mass `m`, first moment `h`, second moment `H`. -/
def PseudoMoments (d : ℕ) (ps : List (Polynomial K 3)) (m : K) (h : Fin 3 → K) (H : Matrix (Fin 3) (Fin 3) K)
    (y : (Fin 3 → ℕ) → K) : Prop :=
  y 0 = m ∧ (∀ i, y (Pi.single i 1) = h i) ∧ (∀ i j, y (Pi.single i 1 + Pi.single j 1) = H i j) ∧
    Spec.LocalizedPSD d [(0, 1)] y ∧
    ∀ p ∈ ps, ∀ D, p.degree = .ok D → Spec.LocalizedPSD (d - (D + 1) / 2) p.coefficients y

theorem mapM_ok_mem {α β : Type} {f : α → Py β} {l : List α} {bs : List β} (h : l.mapM f = .ok bs) :
    ∀ a ∈ l, ∃ b ∈ bs, f a = .ok b := by
  induction l generalizing bs with
  | nil => simp
  | cons a l ih =>
    rw [List.mapM_cons] at h
    cases ha : f a with
    | error e => rw [ha] at h; cases h
    | ok b =>
      rw [ha] at h
      cases hl : l.mapM f with
      | error e => rw [hl] at h; cases h
      | ok bs' =>
        rw [hl] at h
        obtain rfl : b :: bs' = bs := Except.ok.inj h
        intro x hx
        rcases List.mem_cons.mp hx with rfl | hx
        · exact ⟨b, by simp, ha⟩
        · obtain ⟨b', h1, h2⟩ := ih hl x hx
          exact ⟨b', by simp [h1], h2⟩

/-- The relaxation is feasible exactly when a pseudo-moment sequence exists. -/
theorem momentSdp_iff {d : ℕ} (hd : 1 ≤ d) (ps : List (Polynomial K 3))
    (hp : ∀ p ∈ ps, p.WF ∧ ∃ D, p.degree = .ok D ∧ D ≤ 2 * d) (J : Matrix (Fin 4) (Fin 4) K) :
    Py.Holds (momentSdp ps J d) ↔ ∃ y, PseudoMoments d ps (J 3 3) (fun i => J i.castSucc 3)
      (Matrix.of fun i j => J i.castSucc j.castSucc) y := by
  have hd0 : d ≠ 0 := by omega
  obtain ⟨c0, h0, -⟩ := localizing_ok hd (0 : Matrix (Fin (Polynomial.dim 3 d)) (Fin (Polynomial.dim 3 d)) K) ps hp
  have hm0 := momentConstraints_ok hd (0 : Matrix (Fin (Polynomial.dim 3 d)) (Fin (Polynomial.dim 3 d)) K)
  have hunf : Py.Holds (momentSdp ps J d) ↔ ∃ M : Matrix (Fin (Polynomial.dim 3 d)) (Fin (Polynomial.dim 3 d)) K,
    cvxPsdVar M ∧
    Py.Holds (MomentMatrix.momentConstraints 3 d M) ∧
    Py.Holds (MomentMatrix.localizingConstraints 3 d M ps) ∧
    J 3 3 = entry M 0 0 ∧
    (∀ i : Fin 3, J i.castSucc 3 = entry M 0 (1 + i)) ∧
    (∀ i j : Fin 3, J i.castSucc j.castSucc = entry M (1 + i) (1 + j)) := by
    unfold momentSdp
    rw [if_neg hd0]
    dsimp only
    rw [hm0, h0]
    constructor
    · rintro ⟨p, hp, hpp⟩
      obtain rfl := Except.ok.inj hp
      exact hpp
    · intro h
      exact ⟨_, rfl, h⟩
  rw [hunf]
  have hl : 4 ≤ Polynomial.dim 3 d := (dim_mono 3 hd).trans' (by decide)
  have hent : ∀ (y : (Fin 3 → ℕ) → K) (M : Matrix (Fin (Polynomial.dim 3 d)) (Fin (Polynomial.dim 3 d)) K),
      Spec.IsMomentMatrix d y M → ∀ i j, i < 4 → j < 4 →
      entry M i j = y (MomentMatrix.basisIdx 3 d i + MomentMatrix.basisIdx 3 d j) := by
    intro y M hM i j hi hj
    rw [entry, dif_pos ⟨hi.trans_le hl, hj.trans_le hl⟩, (IsMomentMatrix_iff hd y M).mp hM]
    rfl
  obtain ⟨b0, b1⟩ := basisIdx_start hd
  have hone : ∀ (y : (Fin 3 → ℕ) → K) (M : Matrix (Fin (Polynomial.dim 3 d)) (Fin (Polynomial.dim 3 d)) K),
      Spec.IsMomentMatrix d y M → (Spec.PSD M ↔ Spec.LocalizedPSD d [(0, 1)] y) := by
    intro y M hM
    rw [psd_iff_multi hd le_rfl y M ((IsMomentMatrix_iff hd y M).mp hM)]
    unfold Spec.LocalizedPSD
    simp
  have hlocs : ∀ (y : (Fin 3 → ℕ) → K) (M : Matrix (Fin (Polynomial.dim 3 d)) (Fin (Polynomial.dim 3 d)) K),
      Spec.IsMomentMatrix d y M → (Py.Holds (MomentMatrix.localizingConstraints 3 d M ps) ↔
        ∀ p ∈ ps, ∀ D, p.degree = .ok D → Spec.LocalizedPSD (d - (D + 1) / 2) p.coefficients y) := by
    intro y M hM
    constructor
    · rintro ⟨c, hc, hcc⟩ p hpm D hD
      unfold MomentMatrix.localizingConstraints at hc
      cases hcs : ps.mapM (MomentMatrix.localizingConstraint 3 d M) with
      | error e => rw [hcs] at hc; cases hc
      | ok cs =>
        rw [hcs] at hc
        obtain rfl := Except.ok.inj hc
        obtain ⟨q, hq, hq'⟩ := mapM_ok_mem hcs p hpm
        obtain ⟨hwf, D', hD', hv⟩ := hp p hpm
        rw [hD] at hD'
        obtain rfl := Except.ok.inj hD'
        obtain ⟨q', h1, h2⟩ := C24_localizing hd y M hM p hwf hD hv
        rw [hq'] at h1
        obtain rfl := Except.ok.inj h1
        exact h2.mp (hcc q hq)
    · intro h
      obtain ⟨c, hc, hc'⟩ := localizing_ok hd M ps hp
      refine ⟨c, hc, hc' fun p hpm => ?_⟩
      obtain ⟨hwf, D, hD, hv⟩ := hp p hpm
      obtain ⟨q, h1, h2⟩ := C24_localizing hd y M hM p hwf hD hv
      exact ⟨q, h1, h2.mpr (h p hpm D hD)⟩
  constructor
  · rintro ⟨M, hM1, hM2, hM3, e1, e2, e3⟩
    have hM1' : Spec.PSD M := hM1
    obtain ⟨c, hc, hcc⟩ := hM2
    obtain ⟨c', h1, h2⟩ := C24_structure hd M hM1'.1
    rw [hc] at h1
    obtain rfl := Except.ok.inj h1
    obtain ⟨y, hy⟩ := h2.mp hcc
    refine ⟨y, ?_, ?_, ?_, (hone y M hy).mp hM1', (hlocs y M hy).mp hM3⟩
    · rw [e1, hent y M hy 0 0 (by omega) (by omega), b0, add_zero]
    · intro i
      change _ = J i.castSucc 3
      rw [e2, hent y M hy 0 (1 + i) (by omega) (by omega), b0, b1, zero_add]
    · intro i j
      change _ = J i.castSucc j.castSucc
      rw [e3, hent y M hy _ _ (by omega) (by omega), b1, b1]
  · rintro ⟨y, e1, e2, e3, h4, h5⟩
    set M : Matrix (Fin (Polynomial.dim 3 d)) (Fin (Polynomial.dim 3 d)) K :=
      Matrix.of fun i j => y (MomentMatrix.indices 3 d i j) with hM
    have hy : Spec.IsMomentMatrix d y M := (IsMomentMatrix_iff hd _ _).mpr fun i j => rfl
    have hpsd : Spec.PSD M := (hone y M hy).mpr h4
    obtain ⟨c, h1, h2⟩ := C24_structure hd M hpsd.1
    refine ⟨M, hpsd, ⟨c, h1, h2.mpr ⟨y, hy⟩⟩, (hlocs y M hy).mpr h5, ?_, ?_, ?_⟩
    · rw [hent y M hy 0 0 (by omega) (by omega), b0, add_zero, e1]
    · intro i
      rw [hent y M hy 0 (1 + i) (by omega) (by omega), b0, b1, zero_add, e2]
    · intro i j
      rw [hent y M hy _ _ (by omega) (by omega), b1, b1, e3]
      rfl

/-- Consequences of a pseudo-moment sequence for the three quantities themselves. -/
theorem LocalizedPSD.at_zero {d : ℕ} {g : List ((Fin n → ℕ) × K)} {y : (Fin n → ℕ) → K}
    (h : Spec.LocalizedPSD d g y) : 0 ≤ (g.map fun t => t.2 * y t.1).sum := by
  classical
  have := h (fun α => if α = 0 then 1 else 0)
  have h0 : (0 : Fin n → ℕ) ∈ Spec.multiIndices n d := by rw [mem_multiIndices]; simp
  rw [Finset.sum_eq_single (0 : Fin n → ℕ), Finset.sum_eq_single (0 : Fin n → ℕ)] at this
  · simpa using this
  · intro β _ hβ; simp [hβ]
  · intro h; exact absurd h0 h
  · intro β _ hβ
    simp [hβ]
  · intro h; exact absurd h0 h

/-- The order-one part of the moment matrix is the pseudo-inertia matrix. -/
theorem LocalizedPSD.bordered {d : ℕ} (hd : 1 ≤ d) {y : (Fin 3 → ℕ) → K} (h : Spec.LocalizedPSD d [(0, 1)] y) :
    Spec.PSD (bordered (Matrix.of fun i j : Fin 3 => y (Pi.single i 1 + Pi.single j 1))
      (fun i : Fin 3 => y (Pi.single i 1)) (fun i : Fin 3 => y (Pi.single i 1)) (y 0)) := by
  obtain ⟨b0, b1⟩ := basisIdx_start hd
  have hl : 4 ≤ Polynomial.dim 3 d := (dim_mono 3 hd).trans' (by decide)
  have hpsd : Spec.PSD (Matrix.of fun i j : Fin (Polynomial.dim 3 d) => y (MomentMatrix.indices 3 d i j)) := by
    rw [psd_iff_multi hd le_rfl y (Matrix.of fun i j : Fin (Polynomial.dim 3 d) => y (MomentMatrix.indices 3 d i j))
      fun i j => rfl]
    unfold Spec.LocalizedPSD at h
    simpa using h
  -- the columns of the selection matrix
  let σ : Fin 4 → Fin (Polynomial.dim 3 d) :=
    Fin.lastCases ⟨0, by omega⟩ fun i : Fin 3 => ⟨1 + i, by omega⟩
  have hσ : (Matrix.of fun i j : Fin (Polynomial.dim 3 d) => y (MomentMatrix.indices 3 d i j)).submatrix σ σ =
      Rigeo.bordered (Matrix.of fun i j : Fin 3 => y (Pi.single i 1 + Pi.single j 1))
      (fun i : Fin 3 => y (Pi.single i 1)) (fun i : Fin 3 => y (Pi.single i 1)) (y 0) := by
    ext i j
    refine Fin.lastCases ?_ (fun i => ?_) i <;> refine Fin.lastCases ?_ (fun j => ?_) j
    · rw [bordered_ll, submatrix_apply]
      simp only [σ, Fin.lastCases_last, of_apply, MomentMatrix.indices, b0, add_zero]
    · rw [bordered_lc, submatrix_apply]
      simp only [σ, Fin.lastCases_last, Fin.lastCases_castSucc, of_apply, MomentMatrix.indices, b0, b1, zero_add]
    · rw [bordered_cl, submatrix_apply]
      simp only [σ, Fin.lastCases_last, Fin.lastCases_castSucc, of_apply, MomentMatrix.indices, b0, b1, add_zero]
    · rw [bordered_cc, submatrix_apply]
      simp only [σ, Fin.lastCases_castSucc, of_apply, MomentMatrix.indices, b1]
  rw [← hσ]
  have hsel : (Matrix.of fun i j : Fin (Polynomial.dim 3 d) => y (MomentMatrix.indices 3 d i j)).submatrix σ σ =
      (Matrix.of fun (k : Fin 4) (i : Fin (Polynomial.dim 3 d)) => if σ k = i then (1 : K) else 0) *
        (Matrix.of fun i j : Fin (Polynomial.dim 3 d) => y (MomentMatrix.indices 3 d i j)) *
        (Matrix.of fun (k : Fin 4) (i : Fin (Polynomial.dim 3 d)) => if σ k = i then (1 : K) else 0)ᵀ := by
    ext k l
    simp [Matrix.mul_apply]
  rw [hsel]
  exact hpsd.congr _

/-- The terms of the affine function `b - a ⬝ᵥ x`. -/
def _root_.Spec.affineTerms (a : Fin n → K) (b : K) : List ((Fin n → ℕ) × K) :=
  (0, b) :: (List.finRange n).map fun i => (Pi.single i 1, -a i)

theorem affine_degree_one (a : Fin n → K) (b : K) (ha : a ≠ 0) : (Polynomial.affine a b).degree = .ok 1 := by
  obtain ⟨D, hD, h1⟩ := affine_degree a b (fun h => ha (Prod.mk.inj h).1)
  obtain ⟨i, hi⟩ : ∃ i, a i ≠ 0 := by
    by_contra hne
    push Not at hne
    exact ha (funext hne)
  have hmem : ((Pi.single i 1 : Fin n → ℕ), -a i) ∈ (Polynomial.affine a b).coefficients := by
    rw [affine_coefficients, List.mem_filter]
    exact ⟨List.mem_cons_of_mem _ (List.mem_map.mpr ⟨i, List.mem_finRange i, rfl⟩), by simpa using hi⟩
  obtain ⟨D', hD', h2, -⟩ := (C21_degree (Polynomial.affine a b)).2 (List.ne_nil_of_mem hmem)
  rw [hD] at hD'
  obtain rfl := Except.ok.inj hD'
  have := h2 _ hmem
  simp at this
  rw [hD]
  congr 1
  omega

theorem LocalizedPSD_filter (d : ℕ) (g : List ((Fin n → ℕ) × K)) (y : (Fin n → ℕ) → K) :
    Spec.LocalizedPSD d (g.filter fun kc => kc.2 ≠ 0) y ↔ Spec.LocalizedPSD d g y := by
  unfold Spec.LocalizedPSD
  have : ∀ α : Fin n → ℕ, ((g.filter fun kc => kc.2 ≠ 0).map fun t => t.2 * y (t.1 + α)).sum =
      (g.map fun t => t.2 * y (t.1 + α)).sum := fun α => sum_filter_ne g fun k => y (k + α)
  simp only [this]

/-- C52: what `moment_sdp_constraints` of order `d` says about the mass `m`, first moment `h` and second
moment `H` in the variable: it is the Lasserre relaxation of order `d`, that is, there are numbers
`y α` (pseudo-moments) that extend `m`, `h` and `H` such that the functional `L(x ^ α) = y α` is
non-negative on `q²` for `q` of degree at most `d`, and on `(b - a ⬝ᵥ x) q²` for all faces `(a, b)` and
`q` of degree at most `d - 1`. -/
theorem C52_relaxation (P : Poly K 3) (hP : ∀ f ∈ P.faceForm.faces, f.1 ≠ 0) (J : Matrix (Fin 4) (Fin 4) K)
    (eps : K) (heps : 0 ≤ eps) (d : ℕ) (hd : 1 ≤ d) :
    Py.Holds (P.momentSdpConstraints (.mat J) eps d) ↔
      ∃ y : (Fin 3 → ℕ) → K, y 0 = J 3 3 ∧ (∀ i, y (Pi.single i 1) = J i.castSucc 3) ∧
        (∀ i j, y (Pi.single i 1 + Pi.single j 1) = J i.castSucc j.castSucc) ∧
        Spec.LocalizedPSD d [(0, 1)] y ∧
        ∀ f ∈ P.faceForm.faces, Spec.LocalizedPSD (d - 1) (Spec.affineTerms f.1 f.2) y := by
  obtain ⟨c, hc, -⟩ := C19_mat J eps heps
  have e : P.momentSdpConstraints (.mat J) eps d = momentSdp P.polys J d := by
    unfold Poly.momentSdpConstraints; rw [hc]; rfl
  rw [e, momentSdp_iff hd]
  · refine exists_congr fun y => ?_
    unfold PseudoMoments
    refine and_congr_right fun _ => and_congr_right fun _ => and_congr_right fun _ => and_congr_right fun _ => ?_
    constructor
    · intro h f hf
      have := h _ (List.mem_map.mpr ⟨f, hf, rfl⟩) 1 (affine_degree_one f.1 f.2 (hP f hf))
      rwa [affine_coefficients, LocalizedPSD_filter] at this
    · intro h p hp D hD
      obtain ⟨f, hf, rfl⟩ := List.mem_map.mp hp
      rw [affine_degree_one f.1 f.2 (hP f hf)] at hD
      obtain rfl := Except.ok.inj hD
      rw [affine_coefficients, LocalizedPSD_filter]
      exact h f hf
  · intro p hp
    obtain ⟨f, hf, rfl⟩ := List.mem_map.mp hp
    exact ⟨(C21_affine f.1 f.2 0).1, 1, affine_degree_one f.1 f.2 (hP f hf), by omega⟩

/-- C52: in particular every feasible value is the pseudo-inertia matrix of mass, first and second moments
that are PSD, and for positive mass the centre of mass lies in the polyhedron. -/
theorem C52_com (P : Poly K 3) (hP : ∀ f ∈ P.faceForm.faces, f.1 ≠ 0) (J : Matrix (Fin 4) (Fin 4) K)
    (eps : K) (heps : 0 ≤ eps) (d : ℕ) (hd : 1 ≤ d) (h : Py.Holds (P.momentSdpConstraints (.mat J) eps d)) :
    Spec.PSD (bordered (Matrix.of fun i j : Fin 3 => J i.castSucc j.castSucc) (fun i : Fin 3 => J i.castSucc 3)
      (fun i : Fin 3 => J i.castSucc 3) (J 3 3)) ∧
    (0 < J 3 3 → (fun i : Fin 3 => J i.castSucc 3 / J 3 3) ∈ Spec.halfspaces P.faceForm.faces) := by
  obtain ⟨y, e1, e2, e3, h4, h5⟩ := (C52_relaxation P hP J eps heps d hd).mp h
  constructor
  · have := LocalizedPSD.bordered hd h4
    simpa only [e1, e2, e3] using this
  · intro hm f hf
    have := LocalizedPSD.at_zero (h5 f hf)
    simp only [Spec.affineTerms, List.map_cons, List.sum_cons, List.map_map, Function.comp_def, e1, e2] at this
    rw [← List.ofFn_eq_map, List.sum_ofFn] at this
    have e : f.1 ⬝ᵥ (fun i : Fin 3 => J i.castSucc 3 / J 3 3) = (∑ i, f.1 i * J i.castSucc 3) / J 3 3 := by
      rw [dotProduct, Finset.sum_div]
      exact Finset.sum_congr rfl fun i _ => by ring
    rw [e, div_le_iff₀ hm]
    simp only [neg_mul, Finset.sum_neg_distrib] at this
    linarith

/-- C55: `moment_sdp_constraints` of a cylinder keeps the centre of mass in the cylinder. -/
theorem C55_sdp_com (c : Cylinder K) (hR : Spec.Orthogonal c.rotation) (J : Matrix (Fin 4) (Fin 4) K)
    (eps : K) (heps : 0 ≤ eps) (d : ℕ) (hd : 1 ≤ d) (h : Py.Holds (c.momentSdpConstraints (.mat J) eps d))
    (hm : 0 < J 3 3) :
    (fun i : Fin 3 => J i.castSucc 3 / J 3 3) ∈ Spec.cylinder c.length c.radius c.rotation c.center := by
  obtain ⟨q, hq, -⟩ := C19_mat J eps heps
  set X := transformMatrixInv c.rotation c.center * J * (transformMatrixInv c.rotation c.center)ᵀ with hX
  have e : c.momentSdpConstraints (.mat J) eps d = momentSdp c.poly0s X d := by
    unfold Cylinder.momentSdpConstraints; rw [hq]; rfl
  rw [e, momentSdp_iff hd] at h
  swap
  · intro f hf
    obtain ⟨h1, D, h2, h3⟩ := poly0s_wf c f hf
    exact ⟨h1, D, h2, by omega⟩
  obtain ⟨y, e1, e2, e3, h4, h5⟩ := h
  have hm' : X 3 3 = J 3 3 := by
    rw [hX, show (3 : Fin 4) = Fin.last 3 from rfl, body_last, Fin.snoc_last]
  have hpsd := LocalizedPSD.bordered hd h4
  simp only [e1, e2, e3] at hpsd
  have key : ∀ items : List ((Fin 3 → ℕ) × K), Polynomial.init items ∈ c.poly0s → (items.map Prod.fst).Nodup →
      0 ≤ (items.map fun t => t.2 * y t.1).sum := by
    intro items hi hnd
    obtain ⟨-, D, hD, -⟩ := poly0s_wf c _ hi
    have := LocalizedPSD.at_zero (h5 _ hi D hD)
    rw [init_coefficients _ hnd] at this
    rwa [sum_filter_ne items y] at this
  have k1 := key [(![0, 0, 1], 1), (![0, 0, 0], (1 / 2) * c.length)] (by simp [Cylinder.poly0s]) (by simp)
  have k2 := key [(![0, 0, 1], -1), (![0, 0, 0], (1 / 2) * c.length)] (by simp [Cylinder.poly0s]) (by simp)
  have k3 := key [(![2, 0, 0], -1), (![0, 2, 0], -1), (![0, 0, 0], c.radius ^ 2)] (by simp [Cylinder.poly0s])
    (by simp)
  have i0 : (![0, 0, 0] : Fin 3 → ℕ) = 0 := by ext i; fin_cases i <;> rfl
  have i2 : (![0, 0, 1] : Fin 3 → ℕ) = Pi.single 2 1 := by ext i; fin_cases i <;> rfl
  have i00 : (![2, 0, 0] : Fin 3 → ℕ) = Pi.single 0 1 + Pi.single 0 1 := by ext i; fin_cases i <;> rfl
  have i11 : (![0, 2, 0] : Fin 3 → ℕ) = Pi.single 1 1 + Pi.single 1 1 := by ext i; fin_cases i <;> rfl
  simp only [List.map_cons, List.map_nil, List.sum_cons, List.sum_nil, i0, i2, i00, i11, e1, e2, e3, hm',
    of_apply] at k1 k2 k3 hpsd
  rw [bordered_psd_iff hm] at hpsd
  have d0 := hpsd.diag_nonneg 0
  have d1 := hpsd.diag_nonneg 1
  simp only [Matrix.sub_apply, Matrix.smul_apply, outer_apply, of_apply, smul_eq_mul] at d0 d1
  rw [Spec_cylinder_iff hR]
  have hy : ∀ i : Fin 3, (c.rotationᵀ *ᵥ ((fun i : Fin 3 => J i.castSucc 3 / J 3 3) - c.center)) i =
      X i.castSucc 3 / J 3 3 := by
    intro i
    have e := body_last c.rotation c.center J i.castSucc
    rw [← hX, Fin.snoc_castSucc] at e
    have hcm : (fun i : Fin 3 => J i.castSucc 3 / J 3 3) - c.center =
        (J 3 3)⁻¹ • ((fun i : Fin 3 => J i.castSucc (Fin.last 3)) - J (Fin.last 3) (Fin.last 3) • c.center) := by
      ext j
      have hm0 : J (Fin.last 3) (Fin.last 3) ≠ 0 := hm.ne'
      change J j.castSucc (Fin.last 3) / J (Fin.last 3) (Fin.last 3) - c.center j =
        (J (Fin.last 3) (Fin.last 3))⁻¹ * (J j.castSucc (Fin.last 3) - J (Fin.last 3) (Fin.last 3) * c.center j)
      field_simp
    rw [hcm, mulVec_smul, Pi.smul_apply, ← e, smul_eq_mul, div_eq_inv_mul]
    rfl
  rw [hy, hy, hy]
  constructor
  · rw [abs_div, abs_of_pos hm, div_le_iff₀ hm, abs_le]
    constructor <;> linarith
  · rw [div_pow, div_pow, ← add_div, div_le_iff₀ (by positivity)]
    have hne := hm.ne'
    have d0' : X (Fin.castSucc 0) 3 ^ 2 ≤ J 3 3 * X (Fin.castSucc 0) (Fin.castSucc 0) := by
      have : (J 3 3)⁻¹ * (X (Fin.castSucc 0) 3 * X (Fin.castSucc 0) 3) ≤ X (Fin.castSucc 0) (Fin.castSucc 0) := by linarith
      rw [inv_mul_le_iff₀ hm] at this
      linarith
    have d1' : X (Fin.castSucc 1) 3 ^ 2 ≤ J 3 3 * X (Fin.castSucc 1) (Fin.castSucc 1) := by
      have : (J 3 3)⁻¹ * (X (Fin.castSucc 1) 3 * X (Fin.castSucc 1) 3) ≤ X (Fin.castSucc 1) (Fin.castSucc 1) := by linarith
      rw [inv_mul_le_iff₀ hm] at this
      linarith
    have : J 3 3 * (X (Fin.castSucc 0) (Fin.castSucc 0) + X (Fin.castSucc 1) (Fin.castSucc 1)) ≤
        J 3 3 * (c.radius ^ 2 * J 3 3) := mul_le_mul_of_nonneg_left (by linarith) hm.le
    nlinarith

end Field
end Rigeo
