import Verif.Model.FloatVolume
import Verif.Props.FloatShells
import Verif.Props.Density

/-!
# C132: rounding in the volumes of boxes, ellipsoids and cylinders
-/

namespace Rigeo

open Spec

local notation "u" => unitRoundoff

section
variable {fl : ℝ → ℝ} (hfl : IsRounding fl)
include hfl

theorem prod_relErr {k : ℝ} {e : ℕ} {x x' : Fin 3 → ℝ} (hx : ∀ i, RelErr k e (x i) (x' i)) (hk0 : 0 ≤ k) (hk : k ≤ 3) (he : e ≤ 16) {v : ℝ}
    (hv : FlProd fl x' v) : RelErr (3 * k + 6) (3 * e) (∏ i, x i) v := by
  obtain ⟨σ, rfl⟩ := hv
  have h := relErr_mul hfl (l := 3 * k + 6) (g := 3 * e)
    (relErr_mul hfl (l := 2 * k + 3) (g := 2 * e) (hx (σ 0)) (hx (σ 1)) (by linarith) (by omega) hk0 hk0 (by linarith) (by omega))
    (hx (σ 2)) (by linarith) (by omega) (by linarith) hk0 (by linarith) (by omega)
  have e1 : ∏ i, x i = x (σ 0) * x (σ 1) * x (σ 2) := by
    rw [← Equiv.prod_comp σ x, Fin.prod_univ_three]
  rw [e1]
  exact h

/-- C132: `Box.volume` with rounding is the volume of the box up to a relative error of `15 · 2⁻⁵³`. -/
theorem C132_box {b : Box ℝ} (hh : ∀ i, 1 / 10 ^ 15 ≤ b.halfExtents i ∧ b.halfExtents i ≤ 10 ^ 15) {O : Matrix (Fin 3) (Fin 3) ℝ}
    (hO : Orthogonal O) (c : Fin 3 → ℝ) {v : ℝ} (hv : b.volumeFloat fl v) :
    |v - MeasureTheory.volume.real (box b.halfExtents O c)| ≤
      15 * (2 : ℝ) ^ (-53 : ℤ) * MeasureTheory.volume.real (box b.halfExtents O c) := by
  have hu : (2 : ℝ) ^ (-53 : ℤ) = u := by unfold unitRoundoff; norm_num
  have two : RelErr 0 1 2 2 := relErr_exact (by norm_num) (by norm_num)
  have h := prod_relErr hfl (k := 3) (e := 16) (x := fun i => 2 * b.halfExtents i)
    (fun i => relErr_mul hfl two (relErr_exact (e := 15) (hh i).1 (hh i).2)) (by norm_num) (by norm_num) (by norm_num) hv
  rw [← C73_box ⟨b.halfExtents, O, c⟩ (fun i => le_trans (by norm_num) (hh i).1) hO, hu]
  have h1 := h.2.2
  norm_num at h1
  exact h1

/-- C132: the same for `Ellipsoid.volume` in three dimensions and a relative error of `16 · 2⁻⁵³`, if the constant `np.pi` is `π` up to
rounding. -/
theorem C132_ellipsoid {e : Ellipsoid ℝ 3} (hh : ∀ i, 1 / 10 ^ 15 ≤ e.halfExtents i ∧ e.halfExtents i ≤ 10 ^ 15)
    {O : Matrix (Fin 3) (Fin 3) ℝ} (hO : Orthogonal O) (c : Fin 3 → ℝ) {π' : ℝ} (hπ : |π' - Real.pi| ≤ (2 : ℝ) ^ (-53 : ℤ) * Real.pi)
    {v : ℝ} (hv : e.volumeFloat fl π' v) :
    |v - MeasureTheory.volume.real (ellipsoid e.halfExtents O c)| ≤
      16 * (2 : ℝ) ^ (-53 : ℤ) * MeasureTheory.volume.real (ellipsoid e.halfExtents O c) := by
  have hu : (2 : ℝ) ^ (-53 : ℤ) = u := by unfold unitRoundoff; norm_num
  have hπ1 : RelErr 1 1 Real.pi π' := ⟨by linarith [Real.pi_gt_three], by linarith [Real.pi_le_four], by rw [one_mul, ← hu]; exact hπ⟩
  have four : RelErr 0 1 4 4 := relErr_exact (by norm_num) (by norm_num)
  have three : RelErr 0 1 3 3 := relErr_exact (by norm_num) (by norm_num)
  obtain ⟨p, hp, rfl⟩ := hv
  have h := prod_relErr hfl (k := 0) (e := 15) (x := e.halfExtents) (fun i => relErr_exact (hh i).1 (hh i).2) (by norm_num) (by norm_num)
    (by norm_num) hp
  rw [← C73_ellipsoid ⟨e.halfExtents, O, c⟩ (fun i => le_trans (by norm_num) (hh i).1) hO, hu]
  exact (relErr_div hfl (l := 16) (g := 48) (relErr_mul hfl (l := 13) (g := 47) (relErr_mul hfl (l := 4) (g := 2) four hπ1) h) three).2.2

/-- C132: the same for `Cylinder.volume` and a relative error of `9 · 2⁻⁵³`, if the squares of the mathematical library are off by at most
`2 · 2⁻⁵³`. -/
theorem C132_cylinder {c : Cylinder ℝ} (hr : 1 / 10 ^ 15 ≤ c.radius ∧ c.radius ≤ 10 ^ 15) (hl : 1 / 10 ^ 15 ≤ c.length ∧ c.length ≤ 10 ^ 15)
    {O : Matrix (Fin 3) (Fin 3) ℝ} (hO : Orthogonal O) (t : Fin 3 → ℝ) {π' : ℝ} (hπ : |π' - Real.pi| ≤ (2 : ℝ) ^ (-53 : ℤ) * Real.pi)
    {sq : ℝ → ℝ} (hsq : ∀ x, 1 / 10 ^ 15 ≤ x → x ≤ 10 ^ 15 → |sq x - x ^ 2| ≤ 2 * (2 : ℝ) ^ (-53 : ℤ) * x ^ 2) :
    |c.volumeFloat fl sq π' - MeasureTheory.volume.real (cylinder c.length c.radius O t)| ≤
      9 * (2 : ℝ) ^ (-53 : ℤ) * MeasureTheory.volume.real (cylinder c.length c.radius O t) := by
  have hu : (2 : ℝ) ^ (-53 : ℤ) = u := by unfold unitRoundoff; norm_num
  have hπ1 : RelErr 1 1 Real.pi π' := ⟨by linarith [Real.pi_gt_three], by linarith [Real.pi_le_four], by rw [one_mul, ← hu]; exact hπ⟩
  rw [hu] at hsq
  rw [← C73_cylinder ⟨c.length, c.radius, O, t⟩ (le_trans (by norm_num) hl.1) (le_trans (by norm_num) hr.1) hO, hu]
  exact (relErr_mul hfl (l := 9) (g := 46) (relErr_mul hfl (l := 6) (g := 31) hπ1 (relErr_square hsq hr.1 hr.2))
    (relErr_exact (e := 15) hl.1 hl.2)).2.2

omit hfl in
/-- C132: there is a result for every box and ellipsoid, whatever the rounding. -/
theorem C132_result (b : Box ℝ) (e : Ellipsoid ℝ 3) (π' : ℝ) : (∃ v, b.volumeFloat fl v) ∧ ∃ v, e.volumeFloat fl π' v :=
  ⟨⟨_, 1, rfl⟩, _, _, ⟨1, rfl⟩, rfl⟩

end

/-! ### The hypotheses can be met -/

/-- The constant of numpy, and an orthogonal matrix that is not the identity. -/
example : (∀ i, (1 : ℝ) / 10 ^ 15 ≤ (![1, 2, 3] : Fin 3 → ℝ) i ∧ (![1, 2, 3] : Fin 3 → ℝ) i ≤ 10 ^ 15) ∧
    |(884279719003555 / 2 ^ 48 : ℝ) - Real.pi| ≤ (2 : ℝ) ^ (-53 : ℤ) * Real.pi ∧
    ∃ O : Matrix (Fin 3) (Fin 3) ℝ, Orthogonal O ∧ O ≠ 1 := by
  refine ⟨fun i => by fin_cases i <;> norm_num, ?_, -1, ?_, ?_⟩
  · have h1 := Real.pi_gt_d20
    have h2 := Real.pi_lt_d20
    rw [abs_le]
    norm_num at h1 h2 ⊢
    constructor <;> linarith
  · unfold Orthogonal
    rw [Matrix.transpose_neg, Matrix.transpose_one]
    simp
  · intro h
    have := congrFun (congrFun h 0) 0
    simp at this
    norm_num at this

end Rigeo
