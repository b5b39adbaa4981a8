import Verif.Model.FloatSurface
import Verif.Props.FloatEllipsoidPoints
import Verif.Props.FloatSampling

/-!
# C129: rounding in points on the surface and the edges of boxes
-/

namespace Rigeo

open Spec Matrix

local notation "u" => unitRoundoff

theorem nearRotation_transpose {R O : Matrix (Fin 3) (Fin 3) ℝ} (h : NearRotation R O) : NearRotation Rᵀ Oᵀ := by
  refine ⟨?_, fun i j => h.2 j i⟩
  have h1 : Oᵀ * O = 1 := h.1
  show Oᵀᵀ * Oᵀ = 1
  rw [Matrix.transpose_transpose]
  exact mul_eq_one_comm.mp h1

section
variable {fl : ℝ → ℝ} (hfl : IsRounding fl)
include hfl

/-- The rounded coordinates of a point in the frame of a box. -/
theorem frame_close {b : Box ℝ} {O : Matrix (Fin 3) (Fin 3) ℝ} (hO : NearRotation b.rotation O) {S : ℝ} (hS : 1 / 10 ^ 60 ≤ S)
    (hS' : S ≤ 10 ^ 60) {p y ps : Fin 3 → ℝ} (hy : ∀ i, |(O *ᵥ y) i| ≤ S)
    (hp : ∀ i, |p i - rigid O b.center y i| ≤ 200 * u * S)
    (hps : ∀ i, FlDot fl (List.ofFn fun j => (fl (p j - b.center j), b.rotation j i)) (ps i)) (i : Fin 3) :
    |ps i - y i| ≤ 510 * u * S := by
  have hu0 := u_pos
  have hu1 := u_le
  have hu2 : 110 / 10 ^ 18 ≤ u := by unfold unitRoundoff; norm_num
  have hS0 : 0 < S := lt_of_lt_of_le (by norm_num) hS
  have huS0 : 0 < u * S := by positivity
  have huS : 1000 * (u * S) ≤ S := by
    have : 1000 * u ≤ 1 := by norm_num at hu1 ⊢; linarith
    have := mul_le_of_le_one_left hS0.le this
    linarith
  have ht : (1 : ℝ) / 10 ^ 200 ≤ u * S / 100 := by
    have : 110 / 10 ^ 18 * (1 / 10 ^ 60) ≤ u * S := mul_le_mul hu2 hS (by norm_num) hu0.le
    have h3 : (1 : ℝ) / 10 ^ 200 ≤ 110 / 10 ^ 18 * (1 / 10 ^ 60) / 100 := by norm_num
    linarith
  set x : Fin 3 → ℝ := fun j => fl (p j - b.center j) with hx
  have hd : ∀ j, |(x - O *ᵥ y) j| ≤ 202 * u * S := by
    intro j
    have h1 : |p j - b.center j - (O *ᵥ y) j| ≤ 200 * u * S := by
      have e : p j - b.center j - (O *ᵥ y) j = p j - rigid O b.center y j := by
        simp only [rigid, Pi.add_apply]; ring
      rw [e]; exact hp j
    have h2 : |p j - b.center j| ≤ 13 / 10 * S := by
      have := abs_sub_abs_le_abs_sub (p j - b.center j) ((O *ᵥ y) j)
      linarith [hy j]
    have h3 := fl_near hfl (h2.trans ((mul_le_mul_of_nonneg_left hS' (by norm_num)).trans (by norm_num)) : _ ≤ (10 : ℝ) ^ 150)
    have h4 := mul_le_mul_of_nonneg_left h2 hu0.le
    have e : (x - O *ᵥ y) j = (fl (p j - b.center j) - (p j - b.center j)) + (p j - b.center j - (O *ᵥ y) j) := by
      simp only [Pi.sub_apply, hx]; ring
    rw [e]
    refine (abs_add_le _ _).trans ?_
    linarith
  have hv : vlen (x - O *ᵥ y) ≤ 7 / 4 * (202 * u * S) := vlen_le hd
  have hdot : ∀ i, FlDot fl (List.ofFn fun j => (b.rotationᵀ i j, x j)) (ps i) := fun i => by
    have := (hps i).swap
    rwa [List.map_ofFn] at this
  have h5 := step_vector hfl (nearRotation_transpose hO) hS hS' hy (by linarith) hdot
  have h6 : Oᵀ *ᵥ (O *ᵥ y) = y := by
    rw [Matrix.mulVec_mulVec, show Oᵀ * O = 1 from hO.1, Matrix.one_mulVec]
  rw [h6] at h5
  refine (abs_le_vlen (ps - y) i).trans ?_
  linarith

/-- A point near a point on the surface is accepted. -/
theorem surface_accepted {b : Box ℝ} {O : Matrix (Fin 3) (Fin 3) ℝ} (hO : NearRotation b.rotation O) (hh : ∀ i, 0 ≤ b.halfExtents i)
    {S : ℝ} (hS : 1 / 10 ^ 60 ≤ S) (hS' : S ≤ 4 * 10 ^ 3) (hc : ∀ i, |b.center i| + ∑ j, b.halfExtents j ≤ S) {p y : Fin 3 → ℝ}
    (hy : ∀ i, |y i| ≤ b.halfExtents i) (hk : ∃ k, |y k| = b.halfExtents k)
    (hp : ∀ i, |p i - rigid O b.center y i| ≤ 200 * u * S) {answer : Bool}
    (hans : b.onSurfaceFloat fl p (fl (1 / 10 ^ 8)) answer) : answer = true := by
  have hu : (2 : ℝ) ^ (-53 : ℤ) = u := by unfold unitRoundoff; norm_num
  have hu0 := u_pos
  have hu1 := u_le
  have hS0 : 0 < S := lt_of_lt_of_le (by norm_num) hS
  obtain ⟨contained, ps, h1, h2, h3⟩ := hans
  obtain ⟨k, hk⟩ := hk
  have hOy : ∀ i, |(O *ᵥ y) i| ≤ S := fun i => (abs_mulVec_le hO.1 hy i).trans (by linarith [hc 0, abs_nonneg (b.center 0)])
  have h4 := frame_close hfl hO hS (hS'.trans (by norm_num)) hOy hp h2 k
  have h5 : |(|ps k| - b.halfExtents k)| ≤ 510 * u * S := by
    rw [← hk]
    exact (abs_abs_sub_abs_le_abs_sub _ _).trans h4
  have h6 := mul_le_mul hu1 hS' hS0.le (by norm_num)
  have h7 : |(|ps k| - b.halfExtents k)| ≤ 1 / 10 ^ 9 := by
    norm_num at h6 ⊢
    linarith
  have h8 := fl_near hfl (h7.trans (by norm_num : (1 : ℝ) / 10 ^ 9 ≤ 10 ^ 150))
  have h9 := mul_le_mul hu1 h7 (abs_nonneg _) (by norm_num)
  have t1 := fl_near hfl (x := 1 / 10 ^ 8) (by norm_num)
  rw [abs_of_pos (by norm_num : (0 : ℝ) < 1 / 10 ^ 8)] at t1
  have t2 := (abs_le.mp t1).1
  refine h3.mpr ⟨near_accepted hfl hO hh hS hS' hc ⟨y, hy, rfl⟩ (fun i => by rw [hu]; exact hp i) h1, k, ?_⟩
  have h10 := abs_sub_abs_le_abs_sub (fl (|ps k| - b.halfExtents k)) (|ps k| - b.halfExtents k)
  norm_num at h7 h8 h9 hu1 t2 h10 ⊢
  linarith

/-- C129: `random_points_on_edges` with rounding: every coordinate is within `200 · 2⁻⁵³ S` of the exact point on the edge. `O` is the
rotation or reflection that the stored matrix stands for. -/
theorem C129_edges {b : Box ℝ} {O : Matrix (Fin 3) (Fin 3) ℝ} (hO : NearRotation b.rotation O) (hh : ∀ i, 0 ≤ b.halfExtents i)
    {S : ℝ} (hS : 1 / 10 ^ 60 ≤ S) (hS' : S ≤ 10 ^ 60) (hc : ∀ i, |b.center i| + ∑ j, b.halfExtents j ≤ S) {k : Fin 3}
    {s : Fin 3 → Bool} {U : ℝ} {p : Fin 3 → ℝ} (hU : |U| ≤ 1) (h : b.edgePointFloat fl k s U p) (i : Fin 3) :
    |p i - rigid O b.center (fun i => if i = k then b.halfExtents i * U else if s i then b.halfExtents i else -b.halfExtents i) i| ≤
      200 * (2 : ℝ) ^ (-53 : ℤ) * S := by
  have hu : (2 : ℝ) ^ (-53 : ℤ) = u := by unfold unitRoundoff; norm_num
  rw [hu]
  have hu0 := u_pos
  have hS0 : 0 < S := lt_of_lt_of_le (by norm_num) hS
  have hhS : ∀ i, b.halfExtents i ≤ S := fun i => by
    have := Finset.single_le_sum (fun j _ => hh j) (Finset.mem_univ i)
    linarith [hc 0, abs_nonneg (b.center 0)]
  refine place_error hfl hO hh hS hS' hc (fun i => ?_) (fun i => ?_) h i
  · split_ifs
    · rw [abs_mul, abs_of_nonneg (hh i)]
      exact mul_le_of_le_one_right (hh i) hU
    · exact (abs_of_nonneg (hh i)).le
    · rw [abs_neg]
      exact (abs_of_nonneg (hh i)).le
  · split_ifs
    · rw [mul_comm (b.halfExtents i) U]
      exact unit_scale_error hfl hS hS' hU (by rw [abs_of_nonneg (hh i)]; exact hhS i)
    · rw [sub_self, abs_zero]; positivity
    · rw [sub_self, abs_zero]; positivity

/-- C129: `on_surface` with rounding and its default tolerance accepts every random point on an edge of a box in any pose. -/
theorem C129_edges_accepted {b : Box ℝ} {O : Matrix (Fin 3) (Fin 3) ℝ} (hO : NearRotation b.rotation O)
    (hh : ∀ i, 0 ≤ b.halfExtents i) {S : ℝ} (hS : 1 / 10 ^ 60 ≤ S) (hS' : S ≤ 4 * 10 ^ 3)
    (hc : ∀ i, |b.center i| + ∑ j, b.halfExtents j ≤ S) {k : Fin 3} {s : Fin 3 → Bool} {U : ℝ} {p : Fin 3 → ℝ} (hU : |U| ≤ 1)
    (h : b.edgePointFloat fl k s U p) {answer : Bool} (hans : b.onSurfaceFloat fl p (fl (1 / 10 ^ 8)) answer) : answer = true := by
  have hu : (2 : ℝ) ^ (-53 : ℤ) = u := by unfold unitRoundoff; norm_num
  have key := C129_edges hfl hO hh hS (hS'.trans (by norm_num)) hc hU h
  rw [hu] at key
  refine surface_accepted hfl hO hh hS hS' hc (fun i => ?_) ⟨k + 1, ?_⟩ key hans
  · show |(if i = k then b.halfExtents i * U else if s i then b.halfExtents i else -b.halfExtents i)| ≤ _
    split_ifs
    · rw [abs_mul, abs_of_nonneg (hh i)]
      exact mul_le_of_le_one_right (hh i) hU
    · exact (abs_of_nonneg (hh i)).le
    · rw [abs_neg]
      exact (abs_of_nonneg (hh i)).le
  · show |(if k + 1 = k then b.halfExtents (k + 1) * U else if s (k + 1) then b.halfExtents (k + 1) else -b.halfExtents (k + 1))| = _
    rw [if_neg (by fin_cases k <;> decide)]
    split_ifs
    · exact abs_of_nonneg (hh _)
    · rw [abs_neg]
      exact abs_of_nonneg (hh _)

/-- C129: the same for `random_points_on_surface`, for a box at the origin that is not rotated; for other boxes the points are not on
the surface even without rounding. -/
theorem C129_surface_accepted {b : Box ℝ} (hR : b.rotation = 1) (hc : b.center = 0) (hh : ∀ i, 0 ≤ b.halfExtents i) {S : ℝ}
    (hS : 1 / 10 ^ 60 ≤ S) (hS' : S ≤ 10 ^ 3) (hsum : ∑ j, b.halfExtents j ≤ S) {k : Fin 3} {s : Bool} {U p : Fin 3 → ℝ}
    (hU : ∀ i, |U i| ≤ 1) (h : b.surfacePointFloat fl k s U p) {answer : Bool}
    (hans : b.onSurfaceFloat fl p (fl (1 / 10 ^ 8)) answer) : answer = true := by
  have hu : (2 : ℝ) ^ (-53 : ℤ) = u := by unfold unitRoundoff; norm_num
  have hu0 := u_pos
  have hu1 := u_le
  have hS0 : 0 < S := lt_of_lt_of_le (by norm_num) hS
  have huS0 : 0 < u * S := by positivity
  have huS : 1000 * (u * S) ≤ S := by
    have : 1000 * u ≤ 1 := by norm_num at hu1 ⊢; linarith
    have := mul_le_of_le_one_left hS0.le this
    linarith
  have hO : NearRotation b.rotation 1 := by
    rw [hR]
    refine ⟨by show (1 : Matrix (Fin 3) (Fin 3) ℝ)ᵀ * 1 = 1; simp, fun i j => ?_⟩
    rw [sub_self, abs_zero]; positivity
  have hcS : ∀ i, |b.center i| + ∑ j, b.halfExtents j ≤ S := fun i => by rw [hc]; simpa using hsum
  have hhS : ∀ i, b.halfExtents i ≤ S := fun i => (Finset.single_le_sum (fun j _ => hh j) (Finset.mem_univ i)).trans hsum
  obtain ⟨q, hq, v, hv, hp⟩ := h
  have h1 := C126_random hfl hO hh hS (hS'.trans (by norm_num)) hcS hU hq
  rw [hu] at h1
  set y : Fin 3 → ℝ := fun i => if i = k then if s then b.halfExtents i else -b.halfExtents i else U i * b.halfExtents i with hy
  have hyh : ∀ i, |y i| ≤ b.halfExtents i := by
    intro i
    show |(if i = k then if s then b.halfExtents i else -b.halfExtents i else U i * b.halfExtents i)| ≤ _
    split_ifs
    · exact (abs_of_nonneg (hh i)).le
    · rw [abs_neg]
      exact (abs_of_nonneg (hh i)).le
    · rw [abs_mul, abs_of_nonneg (hh i)]
      exact mul_le_of_le_one_left (hh i) (hU i)
  have hrig : ∀ z : Fin 3 → ℝ, rigid 1 b.center z = z := fun z => by
    rw [hc]; simp [rigid]
  have hd : ∀ i, |((fun i => if i = k then if s then b.halfExtents i else -b.halfExtents i else q i) - y) i| ≤ 200 * u * S := by
    intro i
    have h2 := h1 i
    rw [hrig] at h2
    show |(if i = k then if s then b.halfExtents i else -b.halfExtents i else q i) -
      (if i = k then if s then b.halfExtents i else -b.halfExtents i else U i * b.halfExtents i)| ≤ _
    split_ifs
    · rw [sub_self, abs_zero]; positivity
    · rw [sub_self, abs_zero]; positivity
    · exact h2
  have h3 := vlen_le hd
  have h4 := step_center hfl hO hS (hS'.trans (by norm_num)) (fun i => (hyh i).trans (hhS i))
    (t := b.center) (fun i => by rw [hrig]; exact (hyh i).trans (hhS i)) (by linarith) hv hp
  refine surface_accepted hfl hO hh (S := 4 * S) (by linarith) (by norm_num at hS' ⊢; linarith)
    (fun i => (hcS i).trans (by linarith)) hyh ⟨k, ?_⟩ (fun i => ?_) hans
  · show |(if k = k then if s then b.halfExtents k else -b.halfExtents k else U k * b.halfExtents k)| = _
    rw [if_pos rfl]
    split_ifs
    · exact abs_of_nonneg (hh _)
    · rw [abs_neg]
      exact abs_of_nonneg (hh _)
  · refine (abs_le_vlen (p - rigid 1 b.center y) i).trans ?_
    linarith

/-- C129: a point that `on_surface` with rounding accepts is on the surface up to `1.8e-8`: it is at most so far outside, and its distance
to one of the faces' planes is at most `1.1e-8`. -/
theorem C129_sound {b : Box ℝ} {O : Matrix (Fin 3) (Fin 3) ℝ} (hO : NearRotation b.rotation O) {S : ℝ} (hS : 1 / 10 ^ 60 ≤ S)
    (hS' : S ≤ 4 * 10 ^ 3) (hh : ∀ i, |b.halfExtents i| ≤ S) {p y : Fin 3 → ℝ} (hpS : ∀ i, |p i| ≤ S) (hcS : ∀ i, |b.center i| ≤ S)
    (hd : ∀ i, |p i - b.center i| ≤ S) (hp : p = rigid O b.center y)
    (hans : b.onSurfaceFloat fl p (fl (1 / 10 ^ 8)) true) :
    (∀ i, |y i| ≤ b.halfExtents i + 18 / 10 ^ 9) ∧ ∃ k, |(|y k| - b.halfExtents k)| ≤ 11 / 10 ^ 9 := by
  have hu : (2 : ℝ) ^ (-53 : ℤ) = u := by unfold unitRoundoff; norm_num
  have hu0 := u_pos
  have hu1 := u_le
  have hS0 : 0 < S := lt_of_lt_of_le (by norm_num) hS
  have h6 := mul_le_mul hu1 hS' hS0.le (by norm_num)
  obtain ⟨contained, ps, h1, h2, h3⟩ := hans
  obtain ⟨h4, k, h5⟩ := h3.mp rfl
  subst h4
  have hOy : ∀ i, (O *ᵥ y) i = (p - b.center) i := fun i => by
    rw [hp]; simp [rigid]
  have hw : ∀ i, |(O *ᵥ y) i| ≤ S := fun i => by rw [hOy]; exact hd i
  have hyO : Oᵀ *ᵥ (p - b.center) = y := by
    rw [← funext hOy, Matrix.mulVec_mulVec, show Oᵀ * O = 1 from hO.1, Matrix.one_mulVec]
  have hRO : ∀ i j, |b.rotation i j - O i j| ≤ 8 * u := fun i j => by rw [← hu]; exact hO.2 i j
  constructor
  · intro i
    have hR : ∀ j i, |b.rotation j i| ≤ 101 / 100 := fun j i => by
      have h1 := abs_sub_abs_le_abs_sub (b.rotation j i) (O j i)
      have h2 := orthogonal_entry hO.1 j i
      have h3 := hRO j i
      norm_num at hu1 ⊢
      linarith
    have g1 := C105_box_sound hfl b p hR (fun j => (hcS j).trans (hS'.trans (by norm_num)))
      (fun j => (hpS j).trans (hS'.trans (by norm_num))) (fun j => (hh j).trans (hS'.trans (by norm_num))) h1 i
    have g2 : |y i - (b.rotationᵀ *ᵥ (p - b.center)) i| ≤ 24 * (u * S) := by
      have e1 : y i - (b.rotationᵀ *ᵥ (p - b.center)) i = ∑ j, (O j i - b.rotation j i) * (p - b.center) j := by
        have h1 : y i = ∑ j, O j i * (p - b.center) j := (congrFun hyO i).symm
        rw [h1]
        show _ - ∑ j, b.rotation j i * (p - b.center) j = _
        rw [← Finset.sum_sub_distrib]
        exact Finset.sum_congr rfl fun j _ => by ring
      rw [e1]
      refine (Finset.abs_sum_le_sum_abs _ _).trans ?_
      have h2 : ∀ j ∈ Finset.univ, |(O j i - b.rotation j i) * (p - b.center) j| ≤ 8 * u * S := fun j _ => by
        rw [abs_mul, abs_sub_comm (O j i)]
        exact mul_le_mul (hRO j i) (hd j) (abs_nonneg _) (by positivity)
      refine (Finset.sum_le_card_nsmul _ _ _ h2).trans ?_
      rw [Finset.card_univ, Fintype.card_fin, nsmul_eq_mul]
      push_cast
      linarith
    have g3 := abs_sub_abs_le_abs_sub (y i) ((b.rotationᵀ *ᵥ (p - b.center)) i)
    have g4 : 24 * (u * S) ≤ 1 / 10 ^ 9 := by norm_num at h6 ⊢; linarith
    have g5 : (18 : ℝ) / 10 ^ 9 = 17 / 10 ^ 9 + 1 / 10 ^ 9 := by norm_num
    linarith
  · refine ⟨k, ?_⟩
    have g1 := frame_close hfl hO hS (hS'.trans (by norm_num)) hw (p := p) (y := y)
      (fun i => by rw [hp, sub_self, abs_zero]; positivity) h2 k
    have g2 := abs_abs_sub_abs_le_abs_sub (y k) (ps k)
    rw [abs_sub_comm (y k) (ps k)] at g2
    have t1 := fl_near hfl (x := 1 / 10 ^ 8) (by norm_num)
    rw [abs_of_pos (by norm_num : (0 : ℝ) < 1 / 10 ^ 8)] at t1
    have t2 := (abs_le.mp t1).2
    set d := |ps k| - b.halfExtents k with hdd
    have hpsb : |d| ≤ 10 ^ 5 := by
      have a1 := abs_add_le (|ps k|) (-b.halfExtents k)
      rw [abs_neg, abs_abs, ← sub_eq_add_neg, ← hdd] at a1
      have a2 := abs_sub_abs_le_abs_sub (ps k) (y k)
      have a3 : |y k| ≤ 3 * S := by
        have h1 : y k = ∑ j, O j k * (p - b.center) j := (congrFun hyO k).symm
        rw [h1]
        refine (Finset.abs_sum_le_sum_abs _ _).trans ?_
        have h2 : ∀ j ∈ Finset.univ, |O j k * (p - b.center) j| ≤ 1 * S := fun j _ => by
          rw [abs_mul]
          exact mul_le_mul (orthogonal_entry hO.1 j k) (hd j) (abs_nonneg _) (by norm_num)
        refine (Finset.sum_le_card_nsmul _ _ _ h2).trans ?_
        rw [Finset.card_univ, Fintype.card_fin, nsmul_eq_mul]
        push_cast
        linarith
      have a4 := hh k
      norm_num at h6 hS' ⊢
      linarith
    have h8 := fl_near hfl (hpsb.trans (by norm_num : (10 : ℝ) ^ 5 ≤ 10 ^ 150))
    have h9 := mul_le_mul hu1 hpsb (abs_nonneg _) (by norm_num)
    have h10 := abs_sub_abs_le_abs_sub d (fl d)
    rw [abs_sub_comm d (fl d)] at h10
    have e : |y k| - b.halfExtents k = (|y k| - |ps k|) + d := by rw [hdd]; ring
    rw [e]
    refine (abs_add_le _ _).trans ?_
    norm_num at h6 h8 h9 hu1 t2 h5 ⊢
    linarith

omit hfl in
/-- C129: there are such results, whatever the rounding. -/
theorem C129_result (b : Box ℝ) (k : Fin 3) (s : Fin 3 → Bool) (x : ℝ) (U p : Fin 3 → ℝ) (tol : ℝ) :
    (∃ p, b.edgePointFloat fl k s x p) ∧ (∃ p, b.surfacePointFloat fl k (s k) U p) ∧ ∃ answer, b.onSurfaceFloat fl p tol answer := by
  have place : ∀ v : Fin 3 → ℝ, ∃ w, b.placeFloat fl v w := fun v => by
    choose x hx using fun i => FlDot.exists (fl := fl) (List.ofFn fun j => (b.rotation i j, v j))
    exact ⟨fun i => fl (x i + b.center i), x, hx, fun _ => rfl⟩
  refine ⟨place _, ?_, ?_⟩
  · obtain ⟨q, hq⟩ := (C126_result (fl := fl) b U fun _ => 0).1
    obtain ⟨w, hw⟩ := place (fun i => if i = k then if s k then b.halfExtents i else -b.halfExtents i else q i)
    exact ⟨w, q, hq, hw⟩
  · classical
    obtain ⟨c, hc⟩ := C105_total (fl := fl).2.1 b p tol
    choose ps hps using fun i => FlDot.exists (fl := fl) (List.ofFn fun j => (fl (p j - b.center j), b.rotation j i))
    exact ⟨decide (c = true ∧ ∃ i, |fl (|ps i| - b.halfExtents i)| ≤ tol), c, ps, hc, hps, decide_eq_true_iff⟩

end

/-! ### The hypotheses can be met -/

/-- A box in another pose with a point on one of its edges. -/
example : ∃ (b : Box ℝ) (O : Matrix (Fin 3) (Fin 3) ℝ) (p y : Fin 3 → ℝ), NearRotation b.rotation O ∧ O ≠ 1 ∧
    (∀ i, 0 ≤ b.halfExtents i) ∧ (∀ i, |b.center i| + ∑ j, b.halfExtents j ≤ 10) ∧ (∀ i, |p i| ≤ 10) ∧
    (∀ i, |p i - b.center i| ≤ 10) ∧ p = rigid O b.center y := by
  let Q : Matrix (Fin 3) (Fin 3) ℝ := !![1, 0, 0; 0, 0, -1; 0, 1, 0]
  have hQ : Orthogonal Q := by
    unfold Orthogonal
    ext i j
    rw [Matrix.mul_apply, Fin.sum_univ_three]
    fin_cases i <;> fin_cases j <;> simp [Q]
  let b : Box ℝ := ⟨![1, 2, 3], Q, ![0, 0, 4]⟩
  have hp : rigid Q b.center ![1, 1, 3] = ![1, -3, 5] := by
    ext i
    fin_cases i <;> simp [rigid, Q, b, Matrix.mulVec, dotProduct, Fin.sum_univ_three]
    norm_num
  refine ⟨b, Q, ![1, -3, 5], ![1, 1, 3], ⟨hQ, fun i j => by simp [b]⟩, ?_, ?_, ?_, ?_, ?_, hp.symm⟩
  · intro h
    have := congrFun (congrFun h 1) 1
    simp [Q] at this
  · intro i
    show (0 : ℝ) ≤ (![1, 2, 3] : Fin 3 → ℝ) i
    fin_cases i <;> norm_num
  · intro i
    rw [Fin.sum_univ_three]
    show |(![0, 0, 4] : Fin 3 → ℝ) i| + ((1 : ℝ) + 2 + 3) ≤ 10
    fin_cases i <;> norm_num
  · intro i
    fin_cases i <;> norm_num
  · intro i
    show |(![1, -3, 5] : Fin 3 → ℝ) i - (![0, 0, 4] : Fin 3 → ℝ) i| ≤ 10
    fin_cases i <;> norm_num

end Rigeo
