import Verif.Model.FloatEllipsoidPoints
import Verif.Props.FloatRandom
import Verif.Props.FloatInertialTransform
import Verif.Props.FloatSampling

/-!
# C127: rounding in random points of ellipsoids
-/

namespace Rigeo

open Spec Matrix

local notation "u" => unitRoundoff

theorem abs_le_fro (A : Matrix (Fin 3) (Fin 3) ℝ) (i j : Fin 3) : |A i j| ≤ fro A := by
  refine (abs_le_vlen (A i) j).trans ?_
  have := abs_le_vlen (fun i => vlen (A i)) i
  rwa [abs_of_nonneg (vlen_nonneg _)] at this

theorem fro_diagonal {h : Fin 3 → ℝ} (hh : ∀ i, 0 ≤ h i) : fro (Matrix.diagonal h) ≤ ∑ i, h i := by
  refine le_of_sq_le_sq ?_ (Finset.sum_nonneg fun i _ => hh i)
  rw [fro_sq]
  have e : ∀ i, ∑ j, Matrix.diagonal h i j ^ 2 = h i ^ 2 := fun i => by
    rw [Finset.sum_eq_single i (fun j _ hj => by rw [Matrix.diagonal_apply_ne' _ hj]; norm_num) (by simp), Matrix.diagonal_apply_eq]
  simp only [e, Fin.sum_univ_three]
  nlinarith [mul_nonneg (hh 0) (hh 1), mul_nonneg (hh 0) (hh 2), mul_nonneg (hh 1) (hh 2)]

/-- A point that is hardly outside of the unit ball. -/
theorem ball_entry {X : Fin 3 → ℝ} (hX : ∑ i, X i ^ 2 ≤ 1 + 55 * u) (i : Fin 3) : |X i| ≤ 101 / 100 := by
  have h1 := Finset.single_le_sum (f := fun i => X i ^ 2) (fun j _ => sq_nonneg _) (Finset.mem_univ i)
  refine abs_le_of_sq_le_sq ?_ (by norm_num)
  have := u_le
  norm_num at this ⊢
  linarith

section
variable {fl : ℝ → ℝ} (hfl : IsRounding fl)
include hfl

/-- The point before and after the center is added. -/
theorem map_ball_error {e : Ellipsoid ℝ 3} {O : Matrix (Fin 3) (Fin 3) ℝ} (hO : NearRotation e.rotation O)
    (hh : ∀ i, 0 ≤ e.halfExtents i) {S : ℝ} (hS : 1 / 10 ^ 60 ≤ S) (hS' : S ≤ 10 ^ 60)
    (hc : ∀ i, |e.center i| + ∑ j, e.halfExtents j ≤ S) {X p : Fin 3 → ℝ} (hX : ∑ i, X i ^ 2 ≤ 1 + 55 * u)
    (h : e.mapBallFloat fl X p) (i : Fin 3) :
    |(X ᵥ* (O * Matrix.diagonal e.halfExtents * Oᵀ)) i| ≤ 31 / 10 * S ∧
      |p i - (X ᵥ* (O * Matrix.diagonal e.halfExtents * Oᵀ) + e.center) i| ≤ 1700 * u * S := by
  have hu0 := u_pos
  have hu1 := u_le
  have hu2 : 110 / 10 ^ 18 ≤ u := by unfold unitRoundoff; norm_num
  have hS0 : 0 < S := lt_of_lt_of_le (by norm_num) hS
  have huS0 : 0 < u * S := by positivity
  have huS : 10 ^ 4 * (u * S) ≤ S := by
    have : 10 ^ 4 * u ≤ 1 := by norm_num at hu1 ⊢; linarith
    have := mul_le_mul_of_nonneg_right this hS0.le
    linarith
  have hsum : ∑ j, e.halfExtents j ≤ S := by linarith [hc 0, abs_nonneg (e.center 0)]
  obtain ⟨T, A, v, hT, hA, hv, hp⟩ := h
  set D := Matrix.diagonal e.halfExtents with hD
  set B := O * D * Oᵀ with hB
  have hfD : fro D ≤ S := (fro_diagonal hh).trans hsum
  have hfB : fro B = fro D := by rw [hB, fro_mul_transpose hO.1, fro_mul hO.1]
  have hz : fro (D - D) = 0 := by
    rw [sub_self]
    have h1 := fro_le (A := (0 : Matrix (Fin 3) (Fin 3) ℝ)) (a := 0) (fun i j => by simp)
    have h2 := fro_nonneg (0 : Matrix (Fin 3) (Fin 3) ℝ)
    linarith
  have herr := turn_error hfl hO hS hS' hfD (by rw [hz]; linarith) hT hA
  rw [hz, zero_add] at herr
  have hAB : ∀ k, |A k i - B k i| ≤ 525 * u * S := fun k => (abs_le_fro (A - B) k i).trans herr
  have hBk : ∀ k, |B k i| ≤ S := fun k => (abs_le_fro B k i).trans (hfB ▸ hfD)
  have hXk := ball_entry hX
  have hd := dot_approx hfl (by norm_num) (by norm_num) (A := fun _ => 101 / 100) (X := fun _ => S) (ε := 0) (δ := 525)
    (P := 101 / 100 * S) (a := X) (x := fun k => B k i) (hv i) (fun k => by simp) hXk hAB hBk (by norm_num) (by norm_num) (by norm_num)
    (by norm_num) (fun _ => le_refl _) (by norm_num at hS ⊢; linarith) (by norm_num at hS' ⊢; linarith)
  have hw : |∑ k, X k * B k i| ≤ 31 / 10 * S := by
    refine (Finset.abs_sum_le_sum_abs _ _).trans ?_
    have : ∀ k ∈ Finset.univ, |X k * B k i| ≤ 101 / 100 * S := fun k _ => by
      rw [abs_mul]
      exact mul_le_mul (hXk k) (hBk k) (abs_nonneg _) (by norm_num)
    refine (Finset.sum_le_card_nsmul _ _ _ this).trans ?_
    rw [Finset.card_univ, Fintype.card_fin, nsmul_eq_mul]
    push_cast
    linarith
  have hvi : |v i + e.center i| ≤ 5 * S := by
    have h1 := abs_sub_abs_le_abs_sub (v i) (∑ k, X k * B k i)
    have h2 := abs_add_le (v i) (e.center i)
    have h3 := hc i
    have h4 : 0 ≤ ∑ j, e.halfExtents j := Finset.sum_nonneg fun j _ => hh j
    push_cast at hd
    linarith
  have hr := fl_near hfl (hvi.trans (by norm_num at hS' ⊢; linarith : 5 * S ≤ 10 ^ 150))
  have ht : (1 : ℝ) / 10 ^ 200 ≤ u * S := by
    have : 110 / 10 ^ 18 * (1 / 10 ^ 60) ≤ u * S := mul_le_mul hu2 hS (by norm_num) hu0.le
    exact le_trans (by norm_num) this
  have hr2 := mul_le_mul_of_nonneg_left hvi hu0.le
  have ew : (X ᵥ* B) i = ∑ k, X k * B k i := rfl
  refine ⟨by rw [ew]; exact hw, ?_⟩
  have e1 : p i - (X ᵥ* B + e.center) i = (fl (v i + e.center i) - (v i + e.center i)) + (v i - ∑ k, X k * B k i) := by
    rw [hp, Pi.add_apply, ew]; ring
  rw [e1]
  refine (abs_add_le _ _).trans ?_
  push_cast at hd
  linarith

/-- C127: `random_points` of an ellipsoid with rounding: every coordinate is within `1700 · 2⁻⁵³ S` of the exact image of the point
drawn in the ball. `O` is the rotation or reflection that the stored matrix stands for. -/
theorem C127_point {e : Ellipsoid ℝ 3} {O : Matrix (Fin 3) (Fin 3) ℝ} (hO : NearRotation e.rotation O)
    (hh : ∀ i, 0 ≤ e.halfExtents i) {S : ℝ} (hS : 1 / 10 ^ 60 ≤ S) (hS' : S ≤ 10 ^ 60)
    (hc : ∀ i, |e.center i| + ∑ j, e.halfExtents j ≤ S) {X p : Fin 3 → ℝ} (hX : ∑ i, X i ^ 2 ≤ 1 + 55 * (2 : ℝ) ^ (-53 : ℤ))
    (h : e.mapBallFloat fl X p) (i : Fin 3) :
    |p i - rigid O e.center (fun j => e.halfExtents j * (Oᵀ *ᵥ X) j) i| ≤ 1700 * (2 : ℝ) ^ (-53 : ℤ) * S := by
  have hu : (2 : ℝ) ^ (-53 : ℤ) = u := by unfold unitRoundoff; norm_num
  rw [hu] at hX ⊢
  have key := (map_ball_error hfl hO hh hS hS' hc hX h i).2
  have e1 : X ᵥ* (O * Matrix.diagonal e.halfExtents * Oᵀ) + e.center =
      rigid O e.center (fun j => e.halfExtents j * (Oᵀ *ᵥ X) j) := by
    unfold rigid
    congr 1
    rw [← Matrix.mulVec_transpose, Matrix.transpose_mul, Matrix.transpose_mul, Matrix.transpose_transpose,
      Matrix.diagonal_transpose, ← Matrix.mulVec_mulVec, ← Matrix.mulVec_mulVec]
    congr 1
    funext j
    rw [Matrix.mulVec_diagonal]
  rwa [e1] at key

/-- C127: and `contains` with rounding and its default tolerance accepts it, for all draws, if each half extent is zero or at least
a five-hundredth of `S`. -/
theorem C127_accepts {e : Ellipsoid ℝ 3} {O : Matrix (Fin 3) (Fin 3) ℝ} (hO : NearRotation e.rotation O) {S : ℝ}
    (hS : 1 / 10 ^ 60 ≤ S) (hS' : S ≤ 10 ^ 60)
    (hext : ∀ i, (e.halfExtents i = 0 ∧ S ≤ 500) ∨
      (2 / 10 ^ 8 ≤ e.halfExtents i ∧ e.halfExtents i ≤ 10 ^ 10 ∧ S ≤ 500 * e.halfExtents i))
    (hc : ∀ i, |e.center i| + ∑ j, e.halfExtents j ≤ S) {pow : ℝ → ℝ → ℝ} {N p : Fin 3 → ℝ} {c : ℝ}
    (hlo : 1 / 10 ^ 20 ≤ ∑ i, N i ^ 2) (hhi : ∑ i, N i ^ 2 ≤ 10 ^ 60) (hc0 : 0 ≤ c) (hc1 : c ≤ 1)
    (hpow : ∀ x y, 0 ≤ x → x ≤ 1 → 0 ≤ y → y ≤ 1 → |pow x y - x ^ y| ≤ 2 * 2 ^ (-53 : ℤ) * x ^ y)
    (h : e.randomPointFloat fl pow N c p) {answer : Bool} (hans : e.containsFloat fl p (fl (1 / 10 ^ 8)) answer) :
    answer = true := by
  have hu : (2 : ℝ) ^ (-53 : ℤ) = u := by unfold unitRoundoff; norm_num
  have hu0 := u_pos
  have hu1 := u_le
  have hS0 : 0 < S := lt_of_lt_of_le (by norm_num) hS
  have huS0 : 0 < u * S := by positivity
  obtain ⟨X, hball, hmap⟩ := h
  have hX : ∑ i, X i ^ 2 ≤ 1 + 55 * u := by
    have := C115_ball hfl hball (by norm_num) hlo hhi hc0 hc1 hpow
    rw [hu] at this
    push_cast at this
    linarith
  have hh : ∀ i, 0 ≤ e.halfExtents i := fun i => by
    rcases hext i with h0 | h0
    · exact h0.1.ge
    · exact le_trans (by norm_num) h0.1
  have key := map_ball_error hfl hO hh hS hS' hc hX hmap
  have key2 := C127_point hfl hO hh hS hS' hc (by rw [hu]; exact hX) hmap
  rw [hu] at key2
  set q := Oᵀ *ᵥ X with hq
  set w : Fin 3 → ℝ := O *ᵥ (fun j => e.halfExtents j * q j) with hw
  have hqX : ∑ i, q i ^ 2 ≤ 1 + 55 * u := by
    have h1 : vlen q = vlen X := vlen_orthogonal hO.1.transpose X
    have h2 : vlen q ^ 2 = vlen X ^ 2 := by rw [h1]
    rw [vlen_sq, vlen_sq] at h2
    have h3 : ∑ i, q i ^ 2 = q ⬝ᵥ q := by simp [dotProduct, pow_two]
    have h4 : ∑ i, X i ^ 2 = X ⬝ᵥ X := by simp [dotProduct, pow_two]
    rw [h3, h2, ← h4]
    exact hX
  have hqi := ball_entry hqX
  have hp1 : ∀ j, |(p - e.center) j - w j| ≤ 1700 * u * S := fun j => by
    have e1 : (p - e.center) j - w j = p j - rigid O e.center (fun j => e.halfExtents j * q j) j := by
      simp only [Pi.sub_apply, rigid, Pi.add_apply, hw]; ring
    rw [e1]
    exact key2 j
  have hwj : ∀ j, |w j| ≤ 101 / 100 * S := fun j => by
    have h1 := abs_mulVec_le hO.1 (h := fun i => 101 / 100 * e.halfExtents i) (v := fun j => e.halfExtents j * q j) (fun i => by
      rw [abs_mul, abs_of_nonneg (hh i), mul_comm]
      exact mul_le_mul_of_nonneg_right (hqi i) (hh i)) j
    rw [← Finset.mul_sum] at h1
    have h2 : ∑ j, e.halfExtents j ≤ S := by linarith [hc 0, abs_nonneg (e.center 0)]
    linarith
  have hwO : Oᵀ *ᵥ w = fun j => e.halfExtents j * q j := by
    rw [hw, Matrix.mulVec_mulVec, show Oᵀ * O = 1 from hO.1, Matrix.one_mulVec]
  have hRO : ∀ i j, |e.rotation i j - O i j| ≤ 8 * u := fun i j => by rw [← hu]; exact hO.2 i j
  have hR : ∀ j i, |e.rotation j i| ≤ 101 / 100 := fun j i => by
    have h1 := abs_sub_abs_le_abs_sub (e.rotation j i) (O j i)
    have h2 := orthogonal_entry hO.1 j i
    have h3 := hRO j i
    norm_num at hu1 ⊢
    linarith
  -- the coordinates along the axes
  have hy : ∀ i, |(e.rotationᵀ *ᵥ (p - e.center)) i - e.halfExtents i * q i| ≤ 5224 * (u * S) := by
    intro i
    have e1 : (e.rotationᵀ *ᵥ (p - e.center)) i - e.halfExtents i * q i =
        ∑ j, (e.rotation j i * ((p - e.center) j - w j) + (e.rotation j i - O j i) * w j) := by
      have h1 : e.halfExtents i * q i = ∑ j, O j i * w j := (congrFun hwO i).symm
      rw [h1]
      show ∑ j, e.rotation j i * (p - e.center) j - _ = _
      rw [← Finset.sum_sub_distrib]
      exact Finset.sum_congr rfl fun j _ => by ring
    rw [e1]
    refine (Finset.abs_sum_le_sum_abs _ _).trans ?_
    have h2 : ∀ j ∈ Finset.univ, |e.rotation j i * ((p - e.center) j - w j) + (e.rotation j i - O j i) * w j| ≤
        101 / 100 * (1700 * u * S) + 8 * u * (101 / 100 * S) := fun j _ => by
      refine (abs_add_le _ _).trans ?_
      rw [abs_mul, abs_mul]
      exact add_le_add (mul_le_mul (hR j i) (hp1 j) (abs_nonneg _) (by norm_num))
        (mul_le_mul (hRO j i) (hwj j) (abs_nonneg _) (by positivity))
    refine (Finset.sum_le_card_nsmul _ _ _ h2).trans ?_
    rw [Finset.card_univ, Fintype.card_fin, nsmul_eq_mul]
    push_cast
    linarith
  have hpS : ∀ j, |p j - e.center j| ≤ 4 * S := fun j => by
    have h1 := abs_sub_abs_le_abs_sub ((p - e.center) j) (w j)
    have h2 : 1700 * u * S ≤ S := by
      have : 1700 * u ≤ 1 := by norm_num at hu1 ⊢; linarith
      exact mul_le_of_le_one_left hS0.le this
    have h3 := hp1 j
    have h4 := hwj j
    have h5 : (p - e.center) j = p j - e.center j := rfl
    rw [h5] at h1 h3
    linarith
  have hscale : EllipsoidScale e p := by
    refine ⟨le_refl _, fun i => ?_, hR, fun i h0 j => ?_, fun i h0 j => ?_⟩
    · rcases hext i with h1 | h1
      · exact Or.inl h1.1
      · exact Or.inr ⟨h1.1, h1.2.1⟩
    · rcases hext i with h1 | h1
      · exact (hpS j).trans (by linarith [h1.2])
      · have := h1.1
        rw [h0] at this
        norm_num at this
    · rcases hext i with h1 | h1
      · exact absurd h1.1 h0
      · exact (hpS j).trans (by linarith [h1.2.2, hh i])
  refine ellipsoid_accepts_slack hfl e p hscale (fun i h0 => ?_) ?_ hans
  · have h1 := hy i
    rw [h0, zero_mul, sub_zero] at h1
    rcases hext i with h2 | h2
    · have h3 := mul_le_mul hu1 h2.2 hS0.le (by norm_num)
      norm_num at h3 ⊢
      linarith
    · have := h2.1
      rw [h0] at this
      norm_num at this
  · have hterm : ∀ i ∈ Finset.univ, ((e.rotationᵀ *ᵥ (p - e.center)) i / e.halfExtents i) ^ 2 ≤ q i ^ 2 + 61 / 10 ^ 11 := by
      intro i _
      rcases hext i with h2 | h2
      · rw [h2.1, div_zero]
        have := sq_nonneg (q i)
        norm_num
        linarith
      · have hpos : 0 < e.halfExtents i := lt_of_lt_of_le (by norm_num) h2.1
        set y := (e.rotationᵀ *ᵥ (p - e.center)) i with hyd
        have h3 : |y / e.halfExtents i - q i| ≤ 3 / 10 ^ 10 := by
          have e1 : y / e.halfExtents i - q i = (y - e.halfExtents i * q i) / e.halfExtents i := by
            field_simp
          rw [e1, abs_div, abs_of_pos hpos, div_le_iff₀ hpos]
          refine (hy i).trans ?_
          have h4 := mul_le_mul hu1 h2.2.2 hS0.le (by norm_num)
          norm_num at h4 ⊢
          linarith
        have e2 : (y / e.halfExtents i) ^ 2 = q i ^ 2 + 2 * (q i * (y / e.halfExtents i - q i)) + (y / e.halfExtents i - q i) ^ 2 := by
          ring
        have h5 : q i * (y / e.halfExtents i - q i) ≤ 101 / 100 * (3 / 10 ^ 10) := by
          refine (le_abs_self _).trans ?_
          rw [abs_mul]
          exact mul_le_mul (hqi i) h3 (abs_nonneg _) (by norm_num)
        have h6 : (y / e.halfExtents i - q i) ^ 2 ≤ (3 / 10 ^ 10) ^ 2 := by
          rw [← sq_abs]
          exact pow_le_pow_left₀ (abs_nonneg _) h3 2
        rw [e2]
        norm_num at h5 h6 ⊢
        linarith
    refine (Finset.sum_le_sum hterm).trans ?_
    rw [Finset.sum_add_distrib, Finset.sum_const, Finset.card_univ, Fintype.card_fin, nsmul_eq_mul]
    push_cast
    norm_num at hu1 ⊢
    linarith

omit hfl in
/-- C127: there is such a point, whatever the rounding. -/
theorem C127_result (pow : ℝ → ℝ → ℝ) (e : Ellipsoid ℝ 3) (N : Fin 3 → ℝ) (c : ℝ) : ∃ p, e.randomPointFloat fl pow N c p := by
  obtain ⟨X, hX⟩ := (C115_result (fl := fl) pow N N c).2.2
  obtain ⟨T, hT⟩ := matMulFloat.exists fl e.rotation (Matrix.diagonal e.halfExtents)
  obtain ⟨A, hA⟩ := matMulFloat.exists fl T e.rotationᵀ
  choose v hv using fun i => FlDot.exists (fl := fl) (List.ofFn fun j => (X j, A j i))
  exact ⟨fun i => fl (v i + e.center i), X, hX, T, A, v, hT, hA, hv, fun _ => rfl⟩

end

/-! ### The hypotheses can be met -/

/-- A flat ellipsoid away from the origin, and draws. -/
example : ∃ (e : Ellipsoid ℝ 3) (O : Matrix (Fin 3) (Fin 3) ℝ) (N : Fin 3 → ℝ), NearRotation e.rotation O ∧ O ≠ 1 ∧
    (∀ i, (e.halfExtents i = 0 ∧ (7 : ℝ) ≤ 500) ∨
      (2 / 10 ^ 8 ≤ e.halfExtents i ∧ e.halfExtents i ≤ 10 ^ 10 ∧ 7 ≤ 500 * e.halfExtents i)) ∧
    (∀ i, |e.center i| + ∑ j, e.halfExtents j ≤ 7) ∧ 1 / 10 ^ 20 ≤ ∑ i, N i ^ 2 ∧ ∑ i, N i ^ 2 ≤ 10 ^ 60 := by
  let Q : Matrix (Fin 3) (Fin 3) ℝ := !![0, -1, 0; 1, 0, 0; 0, 0, 1]
  have hQ : Orthogonal Q := by
    unfold Orthogonal
    ext i j
    rw [Matrix.mul_apply, Fin.sum_univ_three]
    fin_cases i <;> fin_cases j <;> simp [Q]
  refine ⟨⟨![1, 2, 0], Q, ![0, 0, 4]⟩, Q, ![1, -1, 2], ⟨hQ, fun i j => by simp⟩, ?_, ?_, ?_, ?_, ?_⟩
  · intro h
    have := congrFun (congrFun h 0) 0
    simp [Q] at this
  · intro i
    fin_cases i
    · right
      show (2 : ℝ) / 10 ^ 8 ≤ 1 ∧ (1 : ℝ) ≤ 10 ^ 10 ∧ (7 : ℝ) ≤ 500 * 1
      norm_num
    · right
      show (2 : ℝ) / 10 ^ 8 ≤ 2 ∧ (2 : ℝ) ≤ 10 ^ 10 ∧ (7 : ℝ) ≤ 500 * 2
      norm_num
    · exact Or.inl ⟨rfl, by norm_num⟩
  · intro i
    have e : ∑ j, (![1, 2, 0] : Fin 3 → ℝ) j = 3 := by
      rw [Fin.sum_univ_three]
      show (1 : ℝ) + 2 + 0 = 3
      norm_num
    show |(![0, 0, 4] : Fin 3 → ℝ) i| + ∑ j, (![1, 2, 0] : Fin 3 → ℝ) j ≤ 7
    rw [e]
    fin_cases i <;> norm_num
  all_goals
    rw [Fin.sum_univ_three]
    simp only [Matrix.cons_val]
    norm_num

end Rigeo
