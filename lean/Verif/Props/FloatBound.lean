import Verif.Model.FloatBound
import Verif.Props.FloatTransform
import Verif.Props.FloatRandom
import Verif.Props.Shapes4

/-!
# C125: rounding in axis-aligned bounding boxes
-/

namespace Rigeo

open Spec Matrix

local notation "u" => unitRoundoff

section
variable {fl : ℝ → ℝ} (hfl : IsRounding fl)
include hfl

/-- Half of a rounded sum. -/
theorem half_error {x S : ℝ} (hS : 1 / 10 ^ 60 ≤ S) (hS' : S ≤ 10 ^ 60) (hx : |x| ≤ 2 * S) :
    |fl ((1 / 2) * fl x) - x / 2| ≤ 3 * u * S := by
  have hu0 := u_pos
  have hu1 := u_le
  have hu2 : 110 / 10 ^ 18 ≤ u := by unfold unitRoundoff; norm_num
  have hS0 : 0 < S := lt_of_lt_of_le (by norm_num) hS
  have ht : (1 : ℝ) / 10 ^ 200 ≤ u * S / 100 := by
    have : 110 / 10 ^ 18 * (1 / 10 ^ 60) ≤ u * S := mul_le_mul hu2 hS (by norm_num) hu0.le
    have h3 : (1 : ℝ) / 10 ^ 200 ≤ 110 / 10 ^ 18 * (1 / 10 ^ 60) / 100 := by norm_num
    linarith
  have huS : u * S ≤ S / 1000 := by
    have := mul_le_mul_of_nonneg_right (show u ≤ 1 / 1000 by linarith) hS0.le
    linarith
  have h1 := fl_near hfl (hx.trans (by linarith : 2 * S ≤ 10 ^ 150))
  have h2 : u * |x| ≤ 2 * (u * S) := by nlinarith
  have h3 : |fl x| ≤ 203 / 100 * S := by
    have h := abs_sub_abs_le_abs_sub (fl x) x
    linarith
  have h4 : |1 / 2 * fl x| ≤ 51 / 50 * S := by
    rw [abs_mul, abs_of_pos (by norm_num : (0 : ℝ) < 1 / 2)]
    linarith
  have h5 := fl_near hfl (h4.trans (by linarith : 51 / 50 * S ≤ 10 ^ 150))
  have h6 : u * |1 / 2 * fl x| ≤ 51 / 50 * (u * S) := by nlinarith
  have e : fl ((1 / 2) * fl x) - x / 2 = (fl ((1 / 2) * fl x) - 1 / 2 * fl x) + (fl x - x) / 2 := by ring
  rw [e]
  refine (abs_add_le _ _).trans ?_
  rw [abs_div, abs_of_pos (by norm_num : (0 : ℝ) < 2)]
  linarith

/-- C125: `from_two_vertices(v1, v2)` with rounding succeeds, and the box is axis-aligned and differs from the box with these
opposite corners by at most `6 · 2⁻⁵³ S` on every side. -/
theorem C125_two_vertices {v1 v2 : Fin 3 → ℝ} {S : ℝ} (hS : 1 / 10 ^ 60 ≤ S) (hS' : S ≤ 10 ^ 60) (h1 : ∀ i, |v1 i| ≤ S)
    (h2 : ∀ i, |v2 i| ≤ S) : ∃ b : Box ℝ, Box.fromTwoVerticesFloat fl v1 v2 = .ok b ∧ b.rotation = 1 ∧
      (∀ i, 0 ≤ b.halfExtents i) ∧
      (∀ i, |(b.center i - b.halfExtents i) - min (v1 i) (v2 i)| ≤ 6 * (2 : ℝ) ^ (-53 : ℤ) * S) ∧
      ∀ i, |(b.center i + b.halfExtents i) - max (v1 i) (v2 i)| ≤ 6 * (2 : ℝ) ^ (-53 : ℤ) * S := by
  have hS0 : 0 < S := lt_of_lt_of_le (by norm_num) hS
  have hu : (2 : ℝ) ^ (-53 : ℤ) = u := by unfold unitRoundoff; norm_num
  have hd : ∀ i, |max (v1 i) (v2 i) - min (v1 i) (v2 i)| ≤ 2 * S := fun i => by
    rw [max_sub_min_eq_abs, abs_abs]
    exact (abs_sub _ _).trans (by linarith [h1 i, h2 i])
  have hs : ∀ i, |v1 i + v2 i| ≤ 2 * S := fun i => (abs_add_le _ _).trans (by linarith [h1 i, h2 i])
  have hnn : ∀ i, 0 ≤ fl ((1 / 2) * fl (max (v1 i) (v2 i) - min (v1 i) (v2 i))) := fun i => by
    have hle : (0 : ℝ) ≤ max (v1 i) (v2 i) - min (v1 i) (v2 i) := by
      rw [max_sub_min_eq_abs]; exact abs_nonneg _
    have h3 := fl_nonneg hfl hle ((hd i).trans (by linarith))
    refine fl_nonneg hfl (by positivity) ?_
    have h4 := fl_near hfl ((hd i).trans (by linarith : 2 * S ≤ 10 ^ 150))
    have h5 := abs_sub_abs_le_abs_sub (fl (max (v1 i) (v2 i) - min (v1 i) (v2 i))) (max (v1 i) (v2 i) - min (v1 i) (v2 i))
    have h6 : u * |max (v1 i) (v2 i) - min (v1 i) (v2 i)| ≤ 1 * (2 * S) :=
      mul_le_mul (u_le.trans (by norm_num)) (hd i) (abs_nonneg _) zero_le_one
    rw [abs_mul, abs_of_pos (by norm_num : (0 : ℝ) < 1 / 2)]
    norm_num at h4 ⊢
    linarith [hd i]
  let b : Box ℝ := ⟨fun i => fl ((1 / 2) * fl (max (v1 i) (v2 i) - min (v1 i) (v2 i))), 1, fun i => fl ((1 / 2) * fl (v1 i + v2 i))⟩
  refine ⟨b, ?_, rfl, hnn, ?_, ?_⟩
  · unfold Box.fromTwoVerticesFloat Box.init
    rw [decide_eq_true hnn]
    rfl
  all_goals
    intro i
    have e1 := abs_le.mp (half_error hfl hS hS' (hs i))
    have e2 := abs_le.mp (half_error hfl hS hS' (hd i))
    have e3 := min_add_max (v1 i) (v2 i)
    rw [hu, abs_le]
    simp only [b]
    constructor <;> linarith [e1.1, e1.2, e2.1, e2.2]

omit hfl in
/-- The least and the greatest coordinates. -/
theorem points_extremes {points : List (Fin 3 → ℝ)} (hne : points ≠ []) : ∃ lo hi : Fin 3 → ℝ,
    Box.pointsMin points = .ok lo ∧ Box.pointsMax points = .ok hi ∧ (∀ i, lo i ≤ hi i) ∧
      (∀ p ∈ points, ∀ i, lo i ≤ p i ∧ p i ≤ hi i) ∧
      (∀ i m, (∀ p ∈ points, m ≤ p i) → m ≤ lo i) ∧ ∀ i m, (∀ p ∈ points, p i ≤ m) → hi i ≤ m := by
  match points, hne with
  | p :: ps, _ =>
    have a := fun i => foldl_min_le (fun q : Fin 3 → ℝ => q i) ps (p i)
    have b := fun i => le_foldl_max (fun q : Fin 3 → ℝ => q i) ps (p i)
    refine ⟨_, _, rfl, rfl, fun i => (a i).1.trans (b i).1, ?_, ?_, ?_⟩
    · intro q hq i
      rcases List.mem_cons.mp hq with rfl | hq
      · exact ⟨(a i).1, (b i).1⟩
      · exact ⟨(a i).2 q hq, (b i).2 q hq⟩
    · intro i m h
      exact le_foldl_min (fun q : Fin 3 → ℝ => q i) ps (p i) m (h p (by simp)) fun q hq => h q (by simp [hq])
    · intro i m h
      exact foldl_max_le (fun q : Fin 3 → ℝ => q i) ps (p i) m (h p (by simp)) fun q hq => h q (by simp [hq])

/-- C125: `from_points_to_bound(points)` with rounding succeeds for any number of points; the box is axis-aligned; grown by
`6 · 2⁻⁵³ S` on every side it contains all of the points; and it stays within every axis-aligned box around the points, grown by as
much. -/
theorem C125_bound {points : List (Fin 3 → ℝ)} (hne : points ≠ []) {S : ℝ} (hS : 1 / 10 ^ 60 ≤ S) (hS' : S ≤ 10 ^ 60)
    (hp : ∀ p ∈ points, ∀ i, |p i| ≤ S) : ∃ b : Box ℝ, Box.fromPointsToBoundFloat fl points = .ok b ∧ b.rotation = 1 ∧
      (∀ i, 0 ≤ b.halfExtents i) ∧
      (∀ p ∈ points, p ∈ Spec.box (fun i => b.halfExtents i + 6 * (2 : ℝ) ^ (-53 : ℤ) * S) b.rotation b.center) ∧
      ∀ lo hi : Fin 3 → ℝ, (∀ p ∈ points, p ∈ Spec.aabox lo hi) → Spec.box b.halfExtents b.rotation b.center ⊆
        Spec.aabox (fun i => lo i - 6 * (2 : ℝ) ^ (-53 : ℤ) * S) (fun i => hi i + 6 * (2 : ℝ) ^ (-53 : ℤ) * S) := by
  obtain ⟨lo, hi, e1, e2, hle, hin, hlo, hhi⟩ := points_extremes hne
  have hl : ∀ i, |lo i| ≤ S := fun i => by
    obtain ⟨p, hpm⟩ := List.exists_mem_of_ne_nil _ hne
    rw [abs_le]
    exact ⟨hlo i _ fun q hq => (abs_le.mp (hp q hq i)).1, (hin p hpm i).1.trans (abs_le.mp (hp p hpm i)).2⟩
  have hh : ∀ i, |hi i| ≤ S := fun i => by
    obtain ⟨p, hpm⟩ := List.exists_mem_of_ne_nil _ hne
    rw [abs_le]
    exact ⟨(abs_le.mp (hp p hpm i)).1.trans (hin p hpm i).2, hhi i _ fun q hq => (abs_le.mp (hp q hq i)).2⟩
  obtain ⟨b, hb, hR, hnn, h1, h2⟩ := C125_two_vertices hfl hS hS' hl hh
  refine ⟨b, ?_, hR, hnn, ?_, ?_⟩
  · unfold Box.fromPointsToBoundFloat
    rw [e1, e2]
    exact hb
  · intro p hpm
    rw [hR, Spec_box_one]
    intro i
    have a := abs_le.mp (h1 i)
    have c := abs_le.mp (h2 i)
    rw [min_eq_left (hle i)] at a
    rw [max_eq_right (hle i)] at c
    have := hin p hpm i
    constructor <;> linarith [a.1, a.2, c.1, c.2, this.1, this.2]
  · intro lo' hi' hall q hq i
    rw [hR, Spec_box_one] at hq
    have a := abs_le.mp (h1 i)
    have c := abs_le.mp (h2 i)
    rw [min_eq_left (hle i)] at a
    rw [max_eq_right (hle i)] at c
    have f1 := hlo i (lo' i) fun p hpm => (hall p hpm i).1
    have f2 := hhi i (hi' i) fun p hpm => (hall p hpm i).2
    have := hq i
    constructor <;> linarith [a.1, a.2, c.1, c.2, this.1, this.2]

/-- C125: `contains` of the bounding box, with rounding and its default tolerance, accepts each of the points. -/
theorem C125_contains {points : List (Fin 3 → ℝ)} {S : ℝ} (hS : 1 / 10 ^ 60 ≤ S) (hS' : S ≤ 9 * 10 ^ 5)
    (hp : ∀ p ∈ points, ∀ i, |p i| ≤ S) {b : Box ℝ} (hb : Box.fromPointsToBoundFloat fl points = .ok b) {p : Fin 3 → ℝ}
    (hpm : p ∈ points) {answer : Bool} (hc : b.containsFloat fl p (fl (1 / 10 ^ 8)) answer) : answer = true := by
  have hne : points ≠ [] := List.ne_nil_of_mem hpm
  have hS0 : 0 < S := lt_of_lt_of_le (by norm_num) hS
  obtain ⟨b', hb', hR, hnn, hin, ht⟩ := C125_bound hfl hne hS (hS'.trans (by norm_num)) hp
  obtain rfl : b = b' := by
    rw [hb] at hb'
    exact Except.ok.inj hb'
  have hu : (2 : ℝ) ^ (-53 : ℤ) = u := by unfold unitRoundoff; norm_num
  have hsmall : 6 * (2 : ℝ) ^ (-53 : ℤ) * S ≤ 7 / 10 ^ 10 := by
    rw [hu]
    have := mul_le_mul u_le hS' hS0.le (by norm_num)
    norm_num at this ⊢
    linarith
  -- the box itself is not large
  have hsub := ht (fun _ => -S) (fun _ => S) fun q hq i => abs_le.mp (hp q hq i)
  rw [hR, Spec_box_one_aabox] at hsub
  have hlo := hsub (show (fun i => b.center i - b.halfExtents i) ∈ _ from fun i => ⟨le_refl _, by linarith [hnn i]⟩)
  have hhi := hsub (show (fun i => b.center i + b.halfExtents i) ∈ _ from fun i => ⟨by linarith [hnn i], le_refl _⟩)
  have hcb : ∀ i, |b.center i| ≤ 10 ^ 6 := fun i => by
    have h3 : -S - 6 * (2 : ℝ) ^ (-53 : ℤ) * S ≤ b.center i - b.halfExtents i := (hlo i).1
    have h4 : b.center i + b.halfExtents i ≤ S + 6 * (2 : ℝ) ^ (-53 : ℤ) * S := (hhi i).2
    rw [abs_le]
    norm_num at hsmall h3 h4 ⊢
    constructor <;> linarith [hnn i]
  have hhb : ∀ i, |b.halfExtents i| ≤ 10 ^ 6 := fun i => by
    have h3 : -S - 6 * (2 : ℝ) ^ (-53 : ℤ) * S ≤ b.center i - b.halfExtents i := (hlo i).1
    have h4 : b.center i + b.halfExtents i ≤ S + 6 * (2 : ℝ) ^ (-53 : ℤ) * S := (hhi i).2
    rw [abs_of_nonneg (hnn i)]
    norm_num at hsmall h3 h4 ⊢
    linarith [hnn i]
  obtain ⟨t, s, ht', hsd, hiff⟩ := box_float_rows hc
  rw [hiff]
  intro i k
  have hRb : ∀ j i, |b.rotation j i| ≤ 101 / 100 := fun j i => by
    rw [hR, Matrix.one_apply]
    split_ifs <;> norm_num
  have hpb : ∀ j, |p j| ≤ 10 ^ 6 := fun j => (hp p hpm j).trans (by linarith)
  have hpi := hin p hpm
  rw [hR, Spec_box_one] at hpi
  have hy : (b.rotationᵀ *ᵥ (p - b.center)) i = p i - b.center i := by
    rw [hR, Matrix.transpose_one, Matrix.one_mulVec]; rfl
  cases k
  · have e := abs_le.mp (box_face_error hfl (ht' i).1 (hsd i).1 (fun j => hRb j i) hcb hpb (hhb i))
    rw [← col_dot, hy] at e
    norm_num at e hsmall ⊢
    have := hpi i
    norm_num at this
    linarith [e.1, e.2, this.1, this.2]
  · have e := abs_le.mp (box_face_error hfl (ht' i).2 (hsd i).2 (fun j => (abs_neg _).trans_le (hRb j i)) hcb hpb (hhb i))
    rw [← neg_col_dot, hy] at e
    norm_num at e hsmall ⊢
    have := hpi i
    norm_num at this
    linarith [e.1, e.2, this.1, this.2]

/-- C125: but the box itself need not contain the points: with `(-2⁻⁶⁰, 0, 0)` and `(1, 0, 0)` the first one is outside. -/
theorem C125_loses_point : ∃ (p q : Fin 3 → ℝ) (b : Box ℝ), (∀ i, Binary64 (p i)) ∧ (∀ i, Binary64 (q i)) ∧
    Box.fromPointsToBoundFloat fl [p, q] = .ok b ∧ p ∉ Spec.box b.halfExtents b.rotation b.center := by
  have e1 : fl (1 + (2 : ℝ) ^ (-60 : ℤ)) = 1 := fl_absorb hfl (Or.inl rfl) (by rw [abs_of_pos (by positivity)])
  have e2 : fl (1 + -(2 : ℝ) ^ (-60 : ℤ)) = 1 := fl_absorb hfl (Or.inl rfl) (by rw [abs_neg, abs_of_pos (by positivity)])
  have e3 : fl (1 / 2) = 1 / 2 := fl_same hfl ⟨1, -1, by norm_num, by norm_num, by norm_num, by norm_num⟩ (by rw [abs_of_pos] <;> norm_num)
  have z : Binary64 (0 : ℝ) := ⟨0, 0, by norm_num, by norm_num, by norm_num, by norm_num⟩
  have o : Binary64 (1 : ℝ) := ⟨1, 0, by norm_num, by norm_num, by norm_num, by norm_num⟩
  have s : Binary64 (-(2 : ℝ) ^ (-60 : ℤ)) := ⟨-1, -60, by norm_num, by norm_num, by norm_num, by norm_num⟩
  have f0 := fl_zero hfl
  have hneg : -(2 : ℝ) ^ (-60 : ℤ) ≤ 1 := by norm_num
  let p : Fin 3 → ℝ := ![-(2 : ℝ) ^ (-60 : ℤ), 0, 0]
  let q : Fin 3 → ℝ := ![1, 0, 0]
  let b : Box ℝ := ⟨![1 / 2, 0, 0], 1, ![1 / 2, 0, 0]⟩
  refine ⟨p, q, b, ?_, ?_, ?_, ?_⟩
  · intro i; fin_cases i <;> assumption
  · intro i; fin_cases i <;> assumption
  · have hlo : Box.pointsMin [p, q] = .ok p := by
      refine congrArg Except.ok (funext fun i => ?_)
      fin_cases i
      · exact min_eq_left hneg
      · exact min_self _
      · exact min_self _
    have hhi : Box.pointsMax [p, q] = .ok q := by
      refine congrArg Except.ok (funext fun i => ?_)
      fin_cases i
      · exact max_eq_right hneg
      · exact max_self _
      · exact max_self _
    have hh : (fun i => fl ((1 / 2) * fl (max (p i) (q i) - min (p i) (q i)))) = b.halfExtents := by
      funext i
      fin_cases i
      · show fl ((1 / 2) * fl (max (-(2 : ℝ) ^ (-60 : ℤ)) 1 - min (-(2 : ℝ) ^ (-60 : ℤ)) 1)) = 1 / 2
        rw [max_eq_right hneg, min_eq_left hneg, sub_neg_eq_add, e1, mul_one, e3]
      all_goals
        show fl ((1 / 2) * fl (max (0 : ℝ) 0 - min (0 : ℝ) 0)) = 0
        rw [max_self, min_self, sub_self, f0, mul_zero, f0]
    have hcen : (fun i => fl ((1 / 2) * fl (p i + q i))) = b.center := by
      funext i
      fin_cases i
      · show fl ((1 / 2) * fl (-(2 : ℝ) ^ (-60 : ℤ) + 1)) = 1 / 2
        rw [add_comm, e2, mul_one, e3]
      all_goals
        show fl ((1 / 2) * fl ((0 : ℝ) + 0)) = 0
        rw [add_zero, f0, mul_zero, f0]
    unfold Box.fromPointsToBoundFloat
    rw [hlo, hhi]
    show Box.fromTwoVerticesFloat fl p q = _
    unfold Box.fromTwoVerticesFloat
    rw [hh, hcen]
    unfold Box.init
    rw [decide_eq_true (show ∀ i, 0 ≤ b.halfExtents i by intro i; fin_cases i <;> simp [b])]
    rfl
  · intro h
    have := ((Spec_box_one _ _ _).mp h 0).1
    have h2 : (0 : ℝ) < 2 ^ (-60 : ℤ) := by positivity
    have h3 : (1 / 2 : ℝ) - 1 / 2 ≤ -(2 : ℝ) ^ (-60 : ℤ) := this
    linarith

omit hfl in
/-- C125: without points there is no box. -/
theorem C125_empty : Box.fromPointsToBoundFloat fl [] = .error .value := rfl

omit hfl in
theorem abs_mulVec_le {O : Matrix (Fin 3) (Fin 3) ℝ} (hO : Orthogonal O) {h v : Fin 3 → ℝ} (hv : ∀ j, |v j| ≤ h j) (i : Fin 3) :
    |(O *ᵥ v) i| ≤ ∑ j, h j := by
  show |∑ j, O i j * v j| ≤ _
  refine (Finset.abs_sum_le_sum_abs _ _).trans (Finset.sum_le_sum fun j _ => ?_)
  rw [abs_mul]
  exact (mul_le_of_le_one_left (abs_nonneg _) (orthogonal_entry hO i j)).trans (hv j)

/-- The computed vertices are near the true ones. -/
theorem vertices_near {b : Box ℝ} {O : Matrix (Fin 3) (Fin 3) ℝ} (hO : NearRotation b.rotation O) (hh : ∀ i, 0 ≤ b.halfExtents i)
    {S : ℝ} (hS : 1 / 10 ^ 60 ≤ S) (hS' : S ≤ 10 ^ 59) (hc : ∀ i, |b.center i| + ∑ j, b.halfExtents j ≤ S)
    {vs : List (Fin 3 → ℝ)} (h : b.verticesFloat fl vs) :
    List.Forall₂ (fun v w => ∀ i, |rigid O b.center v i| ≤ S ∧ |w i - rigid O b.center v i| ≤ 160 * u * S)
      (boxVertices b.halfExtents) vs := by
  have hin : ∀ v ∈ boxVertices b.halfExtents, ∀ i, |v i| ≤ b.halfExtents i := by
    have h1 := hull_boxVertices b.halfExtents hh
    intro v hv
    have h2 : v ∈ Spec.hull (boxVertices b.halfExtents) := subset_convexHull ℝ _ hv
    rw [h1] at h2
    exact h2
  unfold Box.verticesFloat at h
  have key : ∀ l : List (Fin 3 → ℝ), (∀ v ∈ l, ∀ i, |v i| ≤ b.halfExtents i) → ∀ ws : List (Fin 3 → ℝ), List.Forall₂ (fun v w : Fin 3 → ℝ => ∃ x : Fin 3 → ℝ,
      (∀ i, FlDot fl (List.ofFn fun j => (b.rotation i j, v j)) (x i)) ∧ ∀ i, w i = fl (x i + b.center i)) l ws →
      List.Forall₂ (fun v w : Fin 3 → ℝ => ∀ i, |rigid O b.center v i| ≤ S ∧ |w i - rigid O b.center v i| ≤ 160 * u * S) l ws := by
    intro l hl ws hf
    induction hf with
    | nil => exact .nil
    | @cons v w l ws hx _ ih =>
      refine .cons ?_ (ih fun v hv => hl v (by simp [hv]))
      obtain ⟨x, hx1, hx2⟩ := hx
      have hv := hl v (by simp)
      have hrig : ∀ i, |rigid O b.center v i| ≤ S := fun i => by
        have h1 := abs_mulVec_le hO.1 hv i
        have h2 := abs_add_le ((O *ᵥ v) i) (b.center i)
        exact h2.trans (by linarith [hc i])
      have hvS : ∀ i, |v i| ≤ S := fun i => by
        have h1 := Finset.single_le_sum (f := b.halfExtents) (fun j _ => hh j) (Finset.mem_univ i)
        linarith [hv i, hc i, abs_nonneg (b.center i)]
      have hz : vlen (v - v) = 0 := by rw [sub_self]; simp [vlen]
      have hs := step_center hfl hO hS (hS'.trans (by norm_num)) hvS hrig (by rw [hz]; exact le_trans (by norm_num) hS) hx1 hx2
      rw [hz, zero_add] at hs
      exact fun i => ⟨hrig i, (abs_le_vlen _ i).trans hs⟩
  exact key _ hin _ h

/-- C125: `aabb()` of a box in any pose, with rounding, succeeds; the result is axis-aligned; grown by `175 · 2⁻⁵³ S` on every side it
contains the box; and it stays within every axis-aligned box around the box, grown by as much. `O` is the rotation or reflection
that the stored matrix stands for. -/
theorem C125_aabb {b : Box ℝ} {O : Matrix (Fin 3) (Fin 3) ℝ} (hO : NearRotation b.rotation O) (hh : ∀ i, 0 ≤ b.halfExtents i)
    {S : ℝ} (hS : 1 / 10 ^ 60 ≤ S) (hS' : S ≤ 10 ^ 59) (hc : ∀ i, |b.center i| + ∑ j, b.halfExtents j ≤ S)
    {result : Py (Box ℝ)} (h : b.aabbFloat fl result) : ∃ a : Box ℝ, result = .ok a ∧ a.rotation = 1 ∧
      Spec.box b.halfExtents O b.center ⊆
        Spec.box (fun i => a.halfExtents i + 175 * (2 : ℝ) ^ (-53 : ℤ) * S) a.rotation a.center ∧
      ∀ lo hi : Fin 3 → ℝ, Spec.box b.halfExtents O b.center ⊆ Spec.aabox lo hi → Spec.box a.halfExtents a.rotation a.center ⊆
        Spec.aabox (fun i => lo i - 175 * (2 : ℝ) ^ (-53 : ℤ) * S) (fun i => hi i + 175 * (2 : ℝ) ^ (-53 : ℤ) * S) := by
  obtain ⟨vs, hvs, rfl⟩ := h
  have hu : (2 : ℝ) ^ (-53 : ℤ) = u := by unfold unitRoundoff; norm_num
  have hS0 : 0 < S := lt_of_lt_of_le (by norm_num) hS
  have hu0 := u_pos
  have huS : 160 * u * S ≤ S := by
    have : 160 * u ≤ 1 := by linarith [u_le]
    exact mul_le_of_le_one_left hS0.le this
  have huS0 : 0 < u * S := by positivity
  have hnear := vertices_near hfl hO hh hS hS' hc hvs
  have hlen := hnear.length_eq
  have hne : vs ≠ [] := by
    intro h0
    rw [h0] at hlen
    have : (boxVertices b.halfExtents) = [] := List.length_eq_zero_iff.mp hlen
    have h1 := hull_boxVertices b.halfExtents hh
    rw [this] at h1
    have h2 : (0 : Fin 3 → ℝ) ∈ Spec.hull ([] : List (Fin 3 → ℝ)) := by
      rw [h1]
      exact fun i => by simpa using hh i
    simp [Spec.hull] at h2
  have hw : ∀ w ∈ vs, ∃ v ∈ boxVertices b.halfExtents, ∀ i,
      |rigid O b.center v i| ≤ S ∧ |w i - rigid O b.center v i| ≤ 160 * u * S := by
    intro w hw
    obtain ⟨k, hk, rfl⟩ := List.mem_iff_getElem.mp hw
    exact ⟨_, List.getElem_mem (hlen ▸ hk), hnear.get (hlen ▸ hk) hk⟩
  have hv : ∀ v ∈ boxVertices b.halfExtents, ∃ w ∈ vs, ∀ i,
      |rigid O b.center v i| ≤ S ∧ |w i - rigid O b.center v i| ≤ 160 * u * S := by
    intro v hv
    obtain ⟨k, hk, rfl⟩ := List.mem_iff_getElem.mp hv
    exact ⟨_, List.getElem_mem (hlen ▸ hk), hnear.get hk (hlen ▸ hk)⟩
  have hb2 : ∀ w ∈ vs, ∀ i, |w i| ≤ 2 * S := by
    intro w hwm i
    obtain ⟨v, _, hvw⟩ := hw w hwm
    have := abs_sub_abs_le_abs_sub (w i) (rigid O b.center v i)
    linarith [(hvw i).1, (hvw i).2]
  obtain ⟨a, ha, hR, hnn, hin, hout⟩ := C125_bound hfl hne (S := 2 * S) (by linarith) (by linarith) hb2
  have hverts : Spec.hull (Box.boxVerts b.halfExtents O b.center) = Spec.box b.halfExtents O b.center :=
    C25_vertices ⟨b.halfExtents, O, b.center⟩ hh
  refine ⟨a, ha, hR, ?_, ?_⟩
  · rw [← hverts, hR, Spec_box_one_aabox, hull_subset_aabox]
    intro p hp
    obtain ⟨v, hvm, rfl⟩ := List.mem_map.mp (show p ∈ (boxVertices b.halfExtents).map _ from hp)
    intro i
    obtain ⟨w, hwm, hvw⟩ := hv v hvm
    have h1 := hin w hwm
    rw [hR, Spec_box_one] at h1
    have h2 := h1 i
    have h3 := abs_le.mp (hvw i).2
    rw [hu] at h2 ⊢
    have h4 : rigid O b.center v i = (O *ᵥ v + b.center) i := rfl
    rw [h4] at h3
    constructor <;> linarith [h2.1, h2.2, h3.1, h3.2]
  · intro lo hi hsub
    rw [← hverts, hull_subset_aabox] at hsub
    have h1 := hout (fun i => lo i - 160 * u * S) (fun i => hi i + 160 * u * S) (by
      intro w hwm i
      obtain ⟨v, hvm, hvw⟩ := hw w hwm
      have h2 := hsub (show (O *ᵥ v + b.center) ∈ Box.boxVerts b.halfExtents O b.center from List.mem_map.mpr ⟨v, hvm, rfl⟩) i
      have h3 := abs_le.mp (hvw i).2
      have h4 : rigid O b.center v i = (O *ᵥ v + b.center) i := rfl
      rw [h4] at h3
      constructor <;> linarith [h2.1, h2.2, h3.1, h3.2])
    intro q hq i
    have h2 := h1 hq i
    rw [hu] at h2 ⊢
    constructor <;> linarith [h2.1, h2.2]

omit hfl in
/-- C125: there is such a result, whatever the rounding. -/
theorem C125_result (b : Box ℝ) : ∃ result, b.aabbFloat fl result := by
  have key : ∀ l : List (Fin 3 → ℝ), ∃ ws : List (Fin 3 → ℝ), List.Forall₂ (fun v w : Fin 3 → ℝ => ∃ x : Fin 3 → ℝ,
      (∀ i, FlDot fl (List.ofFn fun j => (b.rotation i j, v j)) (x i)) ∧ ∀ i, w i = fl (x i + b.center i)) l ws := by
    intro l
    induction l with
    | nil => exact ⟨[], .nil⟩
    | cons v l ih =>
      obtain ⟨ws, hws⟩ := ih
      choose x hx using fun i => FlDot.exists (fl := fl) (List.ofFn fun j => (b.rotation i j, v j))
      exact ⟨(fun i => fl (x i + b.center i)) :: ws, .cons ⟨x, hx, fun _ => rfl⟩ hws⟩
  obtain ⟨vs, hvs⟩ := key (boxVertices b.halfExtents)
  exact ⟨_, vs, hvs, rfl⟩

end

/-! ### The hypotheses can be met -/

/-- Three points, and a box that is not aligned with the axes. -/
example : ∃ (points : List (Fin 3 → ℝ)) (b : Box ℝ) (O : Matrix (Fin 3) (Fin 3) ℝ), points.length = 3 ∧
    (∀ p ∈ points, ∀ i, |p i| ≤ 7) ∧ NearRotation b.rotation O ∧ (∀ i, 0 < b.halfExtents i) ∧
    ∀ i, |b.center i| + ∑ j, b.halfExtents j ≤ 7 := by
  let Q : Matrix (Fin 3) (Fin 3) ℝ := !![0, -1, 0; 1, 0, 0; 0, 0, 1]
  have hQ : Orthogonal Q := by
    unfold Orthogonal
    ext i j
    rw [Matrix.mul_apply, Fin.sum_univ_three]
    fin_cases i <;> fin_cases j <;> simp [Q]
  refine ⟨[![1, 2, 3], ![-4, 5, 6], ![7, 0, -1]], ⟨![1, 2, 3], Q, ![0, 0, 1]⟩, Q, rfl, ?_, ⟨hQ, fun i j => by simp⟩, ?_, ?_⟩
  · intro p hp i
    simp only [List.mem_cons, List.not_mem_nil, or_false] at hp
    rcases hp with rfl | rfl | rfl <;> fin_cases i <;> norm_num
  · intro i
    fin_cases i <;> norm_num
  · intro i
    have e : ∑ j, (![1, 2, 3] : Fin 3 → ℝ) j = 6 := by
      rw [Fin.sum_univ_three]
      show (1 : ℝ) + 2 + 3 = 6
      norm_num
    show |(![0, 0, 1] : Fin 3 → ℝ) i| + ∑ j, (![1, 2, 3] : Fin 3 → ℝ) j ≤ 7
    rw [e]
    fin_cases i <;> norm_num

end Rigeo
