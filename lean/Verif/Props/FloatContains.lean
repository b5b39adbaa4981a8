import Verif.Lemmas.FloatSum
import Verif.Props.Shapes

/-!
# C105: floating-point rounding in the containment tests
-/

namespace Rigeo

open Spec Matrix

/-- Half a unit in the last place of numbers between one and two. -/
noncomputable def unitRoundoff : ℝ := 2 ^ (-53 : ℤ)

local notation "u" => unitRoundoff

theorem u_pos : 0 < u := by unfold unitRoundoff; positivity

theorem u_le : u ≤ 112 / 10 ^ 18 := by unfold unitRoundoff; norm_num

set_option exponentiation.threshold 2000 in
theorem tau_le : (2 : ℝ) ^ (-1075 : ℤ) ≤ 1 / 10 ^ 200 := by norm_num

section
variable {fl : ℝ → ℝ} (hfl : IsRounding fl)
include hfl

set_option exponentiation.threshold 2000 in
/-- One operation on numbers that are not huge. -/
theorem fl_near {x : ℝ} (h : |x| ≤ 10 ^ 150) : |fl x - x| ≤ u * |x| + 1 / 10 ^ 200 := by
  have := fl_error hfl (x := x) (h.trans (by norm_num))
  exact this.trans (add_le_add le_rfl tau_le)

theorem near_rounding : NearFl fl u (1 / 10 ^ 200) (10 ^ 150) := fun _ hx => fl_near hfl hx

omit hfl in
theorem size_ok {n : ℕ} (hn : n ≤ 10 ^ 9) {A : ℝ} (hA0 : 0 ≤ A) (hA : A ≤ 10 ^ 100) :
    (1 + u) ^ n * (A + 2 * n * (1 / 10 ^ 200)) ≤ 10 ^ 150 ∧ (1 + u) ^ n ≤ 1 + 2 * n * u := by
  have hn' : (n : ℝ) ≤ 10 ^ 9 := by exact_mod_cast hn
  have h1 : (n : ℝ) * u ≤ 10 ^ 9 * (112 / 10 ^ 18) := mul_le_mul hn' u_le u_pos.le (by norm_num)
  have hp := pow_le_linear u_pos.le n (h1.trans (by norm_num))
  refine ⟨?_, hp⟩
  have h2 : (1 + u) ^ n ≤ 2 := by
    have : (10 : ℝ) ^ 9 * (112 / 10 ^ 18) ≤ 1 / 2 := by norm_num
    linarith
  have h3 : A + 2 * n * (1 / 10 ^ 200) ≤ 2 * 10 ^ 100 := by
    have : 2 * (n : ℝ) * (1 / 10 ^ 200) ≤ 2 * 10 ^ 9 * (1 / 10 ^ 200) := by gcongr
    have : (2 : ℝ) * 10 ^ 9 * (1 / 10 ^ 200) ≤ 10 ^ 100 := by norm_num
    linarith
  calc _ ≤ 2 * (2 * 10 ^ 100 : ℝ) := mul_le_mul h2 h3 (by positivity) (by norm_num)
    _ ≤ _ := by norm_num

omit hfl in
theorem err_simplify {n : ℕ} (hn : n ≤ 10 ^ 9) {A X : ℝ} (hA : 0 ≤ A) (hX : X ≤ 1 + 2 * n * u) :
    (X - 1) * A + 2 * n * (1 / 10 ^ 200) * X - 1 / 10 ^ 200 ≤ 2 * n * u * A + 1 / 10 ^ 190 := by
  have hn' : (n : ℝ) ≤ 10 ^ 9 := by exact_mod_cast hn
  have h1 : (n : ℝ) * u ≤ 10 ^ 9 * (112 / 10 ^ 18) := mul_le_mul hn' u_le u_pos.le (by norm_num)
  have h2 : X ≤ 2 := by
    have : (10 : ℝ) ^ 9 * (112 / 10 ^ 18) ≤ 1 / 2 := by norm_num
    linarith
  have h3 : (X - 1) * A ≤ 2 * n * u * A := mul_le_mul_of_nonneg_right (by linarith) hA
  have h4 : 2 * n * (1 / 10 ^ 200 : ℝ) * X ≤ 2 * 10 ^ 9 * (1 / 10 ^ 200) * 2 := by
    have : 0 ≤ 2 * (n : ℝ) * (1 / 10 ^ 200) := by positivity
    calc _ ≤ 2 * (n : ℝ) * (1 / 10 ^ 200) * 2 := mul_le_mul_of_nonneg_left h2 this
      _ ≤ _ := by gcongr
  have h5 : 2 * 10 ^ 9 * (1 / 10 ^ 200) * 2 ≤ (1 / 10 ^ 190 : ℝ) := by norm_num
  have h6 : (0 : ℝ) ≤ 1 / 10 ^ 200 := by positivity
  linarith

/-- C105: The dot product of two float vectors of `n` entries, computed in any order and with or without fused operations, is
within `2 n u ∑ |xᵢ yᵢ|` of the exact one, apart from underflow; `u = 2⁻⁵³`. -/
theorem C105_dot {l : List (ℝ × ℝ)} {s : ℝ} (hs : FlDot fl l s) (hn : l.length ≤ 10 ^ 9)
    (hA : (l.map fun t => |t.1 * t.2|).sum ≤ 10 ^ 100) :
    |s - (l.map fun t => t.1 * t.2).sum| ≤ 2 * l.length * 2 ^ (-53 : ℤ) * (l.map fun t => |t.1 * t.2|).sum + 1 / 10 ^ 190 := by
  have hnn : 0 ≤ (l.map fun t => |t.1 * t.2|).sum := by
    have := sum_abs_nonneg (l.map fun t => t.1 * t.2)
    rwa [List.map_map] at this
  by_cases hl : l = []
  · subst hl
    have h0 : s = 0 := by
      clear hn hA hnn
      generalize hl : ([] : List (ℝ × ℝ)) = l at hs
      induction hs with
      | nil => rfl
      | prod x y => simp at hl
      | add h1 _ _ _ _ _ => exact absurd (List.append_eq_nil_iff.mp hl.symm).1 h1
      | fma x y h1 _ _ => exact absurd (List.append_eq_nil_iff.mp hl.symm).1 h1
      | perm hp _ ih => exact ih (by subst hl; exact hp.eq_nil.symm)
    subst h0
    simp
  · obtain ⟨hM, hp⟩ := size_ok hn hnn hA
    exact (hs.error (near_rounding hfl) u_pos.le (by positivity) hM hl).trans (err_simplify hn hnn hp)

/-- C105: The sum of `n` floats computed in any order is within `2 n u ∑ |xᵢ|` of the exact one, apart from underflow. -/
theorem C105_sum {l : List ℝ} {s : ℝ} (hs : FlSum fl l s) (hn : l.length ≤ 10 ^ 9) (hA : (l.map abs).sum ≤ 10 ^ 100) :
    |s - l.sum| ≤ 2 * l.length * 2 ^ (-53 : ℤ) * (l.map abs).sum + 1 / 10 ^ 190 := by
  have hnn := sum_abs_nonneg l
  by_cases hl : l = []
  · subst hl
    have h0 : s = 0 := by
      clear hn hA hnn
      generalize hl : ([] : List ℝ) = l at hs
      induction hs with
      | nil => rfl
      | single x => simp at hl
      | add h1 _ _ _ _ _ => exact absurd (List.append_eq_nil_iff.mp hl.symm).1 h1
      | perm hp _ ih => exact ih (by subst hl; exact hp.eq_nil.symm)
    subst h0
    simp
  · obtain ⟨hM, hp⟩ := size_ok hn hnn hA
    exact (hs.error (near_rounding hfl) u_pos.le (by positivity) hM hl).trans (err_simplify hn hnn hp)

/-- The error of a dot product of vectors. -/
theorem dot_error {d : ℕ} {a x : Fin d → ℝ} {s : ℝ} (hs : FlDot fl (List.ofFn fun j => (a j, x j)) s) (hd : d ≤ 10 ^ 9)
    (hA : ∑ j, |a j * x j| ≤ 10 ^ 100) : |s - a ⬝ᵥ x| ≤ 2 * d * u * ∑ j, |a j * x j| + 1 / 10 ^ 190 := by
  have e1 : ((List.ofFn fun j => (a j, x j)).map fun t => |t.1 * t.2|).sum = ∑ j, |a j * x j| := by
    rw [List.map_ofFn, List.sum_ofFn]; rfl
  have e2 : ((List.ofFn fun j => (a j, x j)).map fun t => t.1 * t.2).sum = a ⬝ᵥ x := by
    rw [List.map_ofFn, List.sum_ofFn]; rfl
  have := C105_dot hfl hs (by rwa [List.length_ofFn]) (by rwa [e1])
  rwa [e1, e2, List.length_ofFn] at this

/-- The threshold `b + tol`. -/
theorem threshold_error {b : ℝ} (hb : |b| ≤ 11 * 10 ^ 6) :
    |fl (b + fl (1 / 10 ^ 8)) - (b + 1 / 10 ^ 8)| ≤ 13 / 10 ^ 10 := by
  have h1 := fl_near hfl (x := 1 / 10 ^ 8) (by rw [abs_of_pos (by positivity)]; norm_num)
  rw [abs_of_pos (by positivity : (0 : ℝ) < 1 / 10 ^ 8)] at h1
  have hu := u_le
  have hu0 := u_pos
  have h2 : |fl (1 / 10 ^ 8) - 1 / 10 ^ 8| ≤ 1 / 10 ^ 20 := by
    have : (112 / 10 ^ 18 : ℝ) * (1 / 10 ^ 8) + 1 / 10 ^ 200 ≤ 1 / 10 ^ 20 := by norm_num
    have : u * (1 / 10 ^ 8) ≤ 112 / 10 ^ 18 * (1 / 10 ^ 8) := by gcongr
    linarith
  have h3 : |b + fl (1 / 10 ^ 8)| ≤ 11 * 10 ^ 6 + 1 := by
    have e := abs_add_le b (fl (1 / 10 ^ 8))
    have e2 := abs_le.mp h2
    have : |fl (1 / 10 ^ 8)| ≤ 1 := by rw [abs_le]; constructor <;> norm_num at e2 ⊢ <;> linarith
    linarith
  have h4 := fl_near hfl (h3.trans (by norm_num))
  have h5 : u * |b + fl (1 / 10 ^ 8)| ≤ 112 / 10 ^ 18 * (11 * 10 ^ 6 + 1) := by gcongr
  have h6 : (112 / 10 ^ 18 : ℝ) * (11 * 10 ^ 6 + 1) + 1 / 10 ^ 200 + 1 / 10 ^ 20 ≤ 13 / 10 ^ 10 := by norm_num
  have e : fl (b + fl (1 / 10 ^ 8)) - (b + 1 / 10 ^ 8) =
      (fl (b + fl (1 / 10 ^ 8)) - (b + fl (1 / 10 ^ 8))) + (fl (1 / 10 ^ 8) - 1 / 10 ^ 8) := by ring
  rw [e]
  exact (abs_add_le _ _).trans (by linarith)

/-- The computed side of one face. -/
theorem face_error {d : ℕ} {a x : Fin d → ℝ} {s : ℝ} (hs : FlDot fl (List.ofFn fun j => (a j, x j)) s)
    (hA : d * ∑ j, |a j * x j| ≤ 10 ^ 7) (hd : d ≤ 10 ^ 9) : |s - a ⬝ᵥ x| ≤ 23 / 10 ^ 10 := by
  rcases Nat.eq_zero_or_pos d with rfl | hd0
  · have := dot_error hfl hs hd (by simp)
    refine this.trans ?_
    simp only [Finset.univ_eq_empty, Finset.sum_empty, mul_zero, zero_add]
    norm_num
  have hnn : 0 ≤ ∑ j, |a j * x j| := Finset.sum_nonneg fun j _ => abs_nonneg _
  have hd1 : (1 : ℝ) ≤ d := by exact_mod_cast hd0
  have h1 := dot_error hfl hs hd (by
    have : ∑ j, |a j * x j| ≤ d * ∑ j, |a j * x j| := le_mul_of_one_le_left hnn hd1
    exact (this.trans hA).trans (by norm_num))
  have h2 : 2 * d * u * ∑ j, |a j * x j| ≤ 2 * (112 / 10 ^ 18) * 10 ^ 7 := by
    calc 2 * d * u * ∑ j, |a j * x j| = 2 * u * (d * ∑ j, |a j * x j|) := by ring
      _ ≤ 2 * (112 / 10 ^ 18) * 10 ^ 7 := by
        have := u_le; have := u_pos
        gcongr
  have h3 : (2 * (112 / 10 ^ 18) * 10 ^ 7 + 1 / 10 ^ 190 : ℝ) ≤ 23 / 10 ^ 10 := by norm_num
  linarith

/-- C105: `ConvexPolyhedron.contains` with rounding: a point that satisfies all the inequalities exactly is accepted, whatever the
order of the additions, if `dim * ∑ |aᵢ pᵢ|` and the offsets are at most ten million. -/
theorem C105_poly_accepts {d : ℕ} (hd : d ≤ 10 ^ 9) {faces : List ((Fin d → ℝ) × ℝ)} {p : Fin d → ℝ} (hp : p ∈ halfspaces faces)
    (hsize : ∀ f ∈ faces, d * ∑ j, |f.1 j * p j| ≤ 10 ^ 7 ∧ |f.2| ≤ 10 ^ 7) {answer : Bool}
    (h : facesContainFloat fl faces p (fl (1 / 10 ^ 8)) answer) : answer = true := by
  obtain ⟨s, hs, hiff⟩ := h
  rw [hiff]
  intro f hf
  have h1 := abs_le.mp (face_error hfl (hs f hf) (hsize f hf).1 hd)
  have h2 := abs_le.mp (threshold_error hfl ((hsize f hf).2.trans (by norm_num)))
  have h3 : f.1 ⬝ᵥ p ≤ f.2 := hp f hf
  have : (23 / 10 ^ 10 + 13 / 10 ^ 10 : ℝ) ≤ 1 / 10 ^ 8 := by norm_num
  linarith

/-- C105: `ConvexPolyhedron.contains` with rounding: a point that is accepted, under the same bounds, satisfies every inequality up
to `1.4e-8`. -/
theorem C105_poly_sound {d : ℕ} (hd : d ≤ 10 ^ 9) {faces : List ((Fin d → ℝ) × ℝ)} {p : Fin d → ℝ}
    (hsize : ∀ f ∈ faces, d * ∑ j, |f.1 j * p j| ≤ 10 ^ 7 ∧ |f.2| ≤ 10 ^ 7)
    (h : facesContainFloat fl faces p (fl (1 / 10 ^ 8)) true) : ∀ f ∈ faces, f.1 ⬝ᵥ p ≤ f.2 + 14 / 10 ^ 9 := by
  obtain ⟨s, hs, hiff⟩ := h
  intro f hf
  have h0 := hiff.mp rfl f hf
  have h1 := abs_le.mp (face_error hfl (hs f hf) (hsize f hf).1 hd)
  have h2 := abs_le.mp (threshold_error hfl ((hsize f hf).2.trans (by norm_num)))
  have : (23 / 10 ^ 10 + 13 / 10 ^ 10 + 1 / 10 ^ 8 : ℝ) ≤ 14 / 10 ^ 9 := by norm_num
  linarith

/-! ## Boxes -/

/-- The computed offset of a face of a box. -/
theorem offset_error {a c : Fin 3 → ℝ} {h t : ℝ} (hs : FlDot fl (List.ofFn fun j => (a j, c j)) t)
    (ha : ∀ j, |a j| ≤ 101 / 100) (hc : ∀ j, |c j| ≤ 10 ^ 6) (hh : |h| ≤ 10 ^ 6) :
    |fl (h + t) - (h + a ⬝ᵥ c)| ≤ 28 / 10 ^ 10 ∧ |fl (h + t)| ≤ 11 * 10 ^ 6 := by
  have hsum : ∑ j, |a j * c j| ≤ 3 * (101 / 100 * 10 ^ 6) := by
    have : ∀ j ∈ Finset.univ, |a j * c j| ≤ 101 / 100 * 10 ^ 6 := fun j _ => by
      rw [abs_mul]; exact mul_le_mul (ha j) (hc j) (abs_nonneg _) (by norm_num)
    refine (Finset.sum_le_card_nsmul _ _ _ this).trans ?_
    simp
  have h1 := face_error hfl hs (by push_cast; linarith) (by norm_num)
  have hdot : |a ⬝ᵥ c| ≤ 3 * (101 / 100 * 10 ^ 6) := (Finset.abs_sum_le_sum_abs _ _).trans hsum
  have ht : |h + t| ≤ 41 * 10 ^ 5 := by
    have e1 := abs_le.mp h1
    have e2 := abs_le.mp hdot
    have e3 := abs_le.mp hh
    rw [abs_le]; constructor <;> norm_num at * <;> linarith
  have h2 := fl_near hfl (ht.trans (by norm_num))
  have h3 : u * |h + t| ≤ 112 / 10 ^ 18 * (41 * 10 ^ 5) := by
    have := u_le; have := u_pos
    gcongr
  have h4 : |fl (h + t) - (h + t)| ≤ 5 / 10 ^ 10 := by
    have : (112 / 10 ^ 18 * (41 * 10 ^ 5) + 1 / 10 ^ 200 : ℝ) ≤ 5 / 10 ^ 10 := by norm_num
    linarith
  constructor
  · have e : fl (h + t) - (h + a ⬝ᵥ c) = (fl (h + t) - (h + t)) + (t - a ⬝ᵥ c) := by ring
    rw [e]
    refine (abs_add_le _ _).trans ?_
    have : (5 / 10 ^ 10 + 23 / 10 ^ 10 : ℝ) ≤ 28 / 10 ^ 10 := by norm_num
    linarith
  · have e1 := abs_le.mp h4
    have e2 := abs_le.mp ht
    rw [abs_le]; constructor <;> norm_num at * <;> linarith

/-- The computed sides of a face of a box differ by little from the exact ones. -/
theorem box_face_error {a c p : Fin 3 → ℝ} {h t s : ℝ} (ht : FlDot fl (List.ofFn fun j => (a j, c j)) t)
    (hs : FlDot fl (List.ofFn fun j => (a j, p j)) s)
    (ha : ∀ j, |a j| ≤ 101 / 100) (hc : ∀ j, |c j| ≤ 10 ^ 6) (hp : ∀ j, |p j| ≤ 10 ^ 6) (hh : |h| ≤ 10 ^ 6) :
    |(fl (fl (h + t) + fl (1 / 10 ^ 8)) - s) - (h + 1 / 10 ^ 8 - (a ⬝ᵥ p - a ⬝ᵥ c))| ≤ 64 / 10 ^ 10 := by
  obtain ⟨h1, h2⟩ := offset_error hfl ht ha hc hh
  have h3 := threshold_error hfl h2
  have hsum : ∑ j, |a j * p j| ≤ 3 * (101 / 100 * 10 ^ 6) := by
    have : ∀ j ∈ Finset.univ, |a j * p j| ≤ 101 / 100 * 10 ^ 6 := fun j _ => by
      rw [abs_mul]; exact mul_le_mul (ha j) (hp j) (abs_nonneg _) (by norm_num)
    refine (Finset.sum_le_card_nsmul _ _ _ this).trans ?_
    simp
  have h4 := face_error hfl hs (by push_cast; linarith) (by norm_num)
  have e1 := abs_le.mp h1
  have e3 := abs_le.mp h3
  have e4 := abs_le.mp h4
  rw [abs_le]
  constructor <;> norm_num at * <;> linarith

omit hfl in
/-- The rows of a box, face by face. -/
theorem box_float_rows {b : Box ℝ} {p : Fin 3 → ℝ} {tol : ℝ} {answer : Bool} (h : b.containsFloat fl p tol answer) :
    ∃ t s : Fin 3 → Bool → ℝ,
      (∀ i, FlDot fl (List.ofFn fun j => (b.rotation j i, b.center j)) (t i false) ∧
        FlDot fl (List.ofFn fun j => (-b.rotation j i, b.center j)) (t i true)) ∧
      (∀ i, FlDot fl (List.ofFn fun j => (b.rotation j i, p j)) (s i false) ∧
        FlDot fl (List.ofFn fun j => (-b.rotation j i, p j)) (s i true)) ∧
      (answer = true ↔ ∀ i k, s i k ≤ fl (fl (b.halfExtents i + t i k) + tol)) := by
  obtain ⟨faces, ⟨t, ht, rfl⟩, s, hs, hiff⟩ := h
  refine ⟨t, fun i k => s (if k then ((fun j => -b.rotation j i), fl (b.halfExtents i + t i true)) else
    ((fun j => b.rotation j i), fl (b.halfExtents i + t i false))), ht, fun i => ⟨?_, ?_⟩, ?_⟩
  · exact hs ((fun j => b.rotation j i), fl (b.halfExtents i + t i false)) 
      (by simp only [List.mem_flatMap, List.mem_finRange, true_and]; exact ⟨i, by simp⟩)
  · exact hs ((fun j => -b.rotation j i), fl (b.halfExtents i + t i true)) 
      (by simp only [List.mem_flatMap, List.mem_finRange, true_and]; exact ⟨i, by simp⟩)
  · rw [hiff]
    constructor
    · intro hall i k
      cases k
      · exact hall _ (by simp only [List.mem_flatMap, List.mem_finRange, true_and]; exact ⟨i, by simp⟩)
      · exact hall _ (by simp only [List.mem_flatMap, List.mem_finRange, true_and]; exact ⟨i, by simp⟩)
    · intro hall f hf
      simp only [List.mem_flatMap, List.mem_finRange, true_and, List.mem_cons, List.not_mem_nil, or_false] at hf
      obtain ⟨i, rfl | rfl⟩ := hf
      · exact hall i false
      · exact hall i true

omit hfl in
theorem col_dot (R : Matrix (Fin 3) (Fin 3) ℝ) (p c : Fin 3 → ℝ) (i : Fin 3) :
    (Rᵀ *ᵥ (p - c)) i = (fun j => R j i) ⬝ᵥ p - (fun j => R j i) ⬝ᵥ c := by
  rw [← dotProduct_sub]; rfl

omit hfl in
theorem neg_col_dot (R : Matrix (Fin 3) (Fin 3) ℝ) (p c : Fin 3 → ℝ) (i : Fin 3) :
    -(Rᵀ *ᵥ (p - c)) i = (fun j => -R j i) ⬝ᵥ p - (fun j => -R j i) ⬝ᵥ c := by
  rw [col_dot]
  have : (fun j => -R j i) = -(fun j => R j i) := rfl
  rw [this, neg_dotProduct, neg_dotProduct]; ring

/-- C105: `Box.contains` with rounding: a point within the half extents along every axis is accepted, whatever the order of the
additions in the constructor and in the test, if all coordinates and half extents are at most a million. The columns of the
rotation need not be exactly orthonormal. -/
theorem C105_box_accepts (b : Box ℝ) (p : Fin 3 → ℝ) (hR : ∀ j i, |b.rotation j i| ≤ 101 / 100) (hc : ∀ j, |b.center j| ≤ 10 ^ 6)
    (hp : ∀ j, |p j| ≤ 10 ^ 6) (hh : ∀ i, |b.halfExtents i| ≤ 10 ^ 6)
    (hin : ∀ i, |(b.rotationᵀ *ᵥ (p - b.center)) i| ≤ b.halfExtents i) {answer : Bool}
    (h : b.containsFloat fl p (fl (1 / 10 ^ 8)) answer) : answer = true := by
  obtain ⟨t, s, ht, hs, hiff⟩ := box_float_rows h
  rw [hiff]
  intro i k
  have hi := abs_le.mp (hin i)
  have h64 : (64 / 10 ^ 10 : ℝ) ≤ 1 / 10 ^ 8 := by norm_num
  cases k
  · have e := abs_le.mp (box_face_error hfl (ht i).1 (hs i).1 (fun j => hR j i) hc hp (hh i))
    rw [← col_dot] at e
    linarith
  · have e := abs_le.mp (box_face_error hfl (ht i).2 (hs i).2 (fun j => (abs_neg _).trans_le (hR j i)) hc hp (hh i))
    rw [← neg_col_dot] at e
    linarith

/-- C105: `Box.contains` with rounding: a point that is accepted, under the same bounds, is within the half extents up to `1.7e-8`;
so the exact test with that tolerance accepts it. -/
theorem C105_box_sound (b : Box ℝ) (p : Fin 3 → ℝ) (hR : ∀ j i, |b.rotation j i| ≤ 101 / 100) (hc : ∀ j, |b.center j| ≤ 10 ^ 6)
    (hp : ∀ j, |p j| ≤ 10 ^ 6) (hh : ∀ i, |b.halfExtents i| ≤ 10 ^ 6) (h : b.containsFloat fl p (fl (1 / 10 ^ 8)) true) :
    ∀ i, |(b.rotationᵀ *ᵥ (p - b.center)) i| ≤ b.halfExtents i + 17 / 10 ^ 9 := by
  obtain ⟨t, s, ht, hs, hiff⟩ := box_float_rows h
  intro i
  have h64 : (64 / 10 ^ 10 + 1 / 10 ^ 8 : ℝ) ≤ 17 / 10 ^ 9 := by norm_num
  have h0 := hiff.mp rfl i
  have e1 := abs_le.mp (box_face_error hfl (ht i).1 (hs i).1 (fun j => hR j i) hc hp (hh i))
  have e2 := abs_le.mp (box_face_error hfl (ht i).2 (hs i).2 (fun j => (abs_neg _).trans_le (hR j i)) hc hp (hh i))
  rw [← col_dot] at e1
  rw [← neg_col_dot] at e2
  have f1 := h0 false
  have f2 := h0 true
  rw [abs_le]
  constructor <;> linarith

/-- C105: for an orthogonal rotation: the points of the box are accepted and every accepted point is in the box grown by `1.7e-8`. -/
theorem C105_box (b : Box ℝ) (hO : Spec.Orthogonal b.rotation) (p : Fin 3 → ℝ) (hc : ∀ j, |b.center j| ≤ 10 ^ 6)
    (hp : ∀ j, |p j| ≤ 10 ^ 6) (hh : ∀ i, |b.halfExtents i| ≤ 10 ^ 6) :
    (p ∈ Spec.box b.halfExtents b.rotation b.center → ¬ b.containsFloat fl p (fl (1 / 10 ^ 8)) false) ∧
      (b.containsFloat fl p (fl (1 / 10 ^ 8)) true → p ∈ Spec.box (fun i => b.halfExtents i + 17 / 10 ^ 9) b.rotation b.center) := by
  have hR : ∀ j i, |b.rotation j i| ≤ 101 / 100 := fun j i => by
    have h1 : ∑ k, b.rotation k i * b.rotation k i = 1 := by
      have := congrFun (congrFun hO i) i
      simpa [Matrix.mul_apply] using this
    have h2 : b.rotation j i * b.rotation j i ≤ 1 :=
      h1 ▸ Finset.single_le_sum (f := fun k => b.rotation k i * b.rotation k i) (fun k _ => mul_self_nonneg _) (Finset.mem_univ j)
    rw [abs_le]; constructor <;> nlinarith
  constructor
  · intro hin h
    rw [Spec_box_iff hO] at hin
    exact absurd (C105_box_accepts hfl b p hR hc hp hh hin h) (by simp)
  · intro h
    rw [Spec_box_iff hO]
    exact C105_box_sound hfl b p hR hc hp hh h

/-! ## Ellipsoids -/

/-- The computed coordinate of a point in the frame of the ellipsoid. -/
theorem coord_error {d : ℕ} (hd : d ≤ 3) {r w : Fin d → ℝ} {y B : ℝ} (hy : FlDot fl (List.ofFn fun j => (fl (w j), r j)) y)
    (hr : ∀ j, |r j| ≤ 101 / 100) (hB : ∑ j, |r j * w j| ≤ B) (hw : ∀ j, |w j| ≤ 10 ^ 90) (hB2 : B ≤ 10 ^ 90) :
    |y - w ⬝ᵥ r| ≤ 8 * u * B + 1 / 10 ^ 180 := by
  have hu := u_le
  have hu0 := u_pos
  have hd' : (d : ℝ) ≤ 3 := by exact_mod_cast hd
  have hB0 : 0 ≤ B := (Finset.sum_nonneg fun j _ => abs_nonneg _).trans hB
  have hdiff : ∀ j, |fl (w j) * r j - w j * r j| ≤ u * |r j * w j| + 2 / 10 ^ 200 := fun j => by
    have h1 := fl_near hfl ((hw j).trans (by norm_num))
    rw [← sub_mul, abs_mul]
    calc _ ≤ (u * |w j| + 1 / 10 ^ 200) * |r j| := mul_le_mul_of_nonneg_right h1 (abs_nonneg _)
      _ = u * |r j * w j| + 1 / 10 ^ 200 * |r j| := by rw [abs_mul]; ring
      _ ≤ _ := by
        have : 1 / 10 ^ 200 * |r j| ≤ (1 / 10 ^ 200 * (101 / 100) : ℝ) := mul_le_mul_of_nonneg_left (hr j) (by positivity)
        have : (1 / 10 ^ 200 * (101 / 100) : ℝ) ≤ 2 / 10 ^ 200 := by norm_num
        linarith
  have hsumc : ∀ c : ℝ, 0 ≤ c → ∑ j : Fin d, (u * |r j * w j| + c) ≤ u * B + 3 * c := fun c hc0 => by
    rw [Finset.sum_add_distrib, ← Finset.mul_sum]
    have h1 : u * ∑ j, |r j * w j| ≤ u * B := mul_le_mul_of_nonneg_left hB hu0.le
    have h2 : ∑ _j : Fin d, c = d * c := by simp
    have h3 : (d : ℝ) * c ≤ 3 * c := mul_le_mul_of_nonneg_right hd' hc0
    linarith
  have hsum : ∑ j, |fl (w j) * r j - w j * r j| ≤ u * B + 6 / 10 ^ 200 :=
    (Finset.sum_le_sum fun j _ => hdiff j).trans ((hsumc (2 / 10 ^ 200) (by positivity)).trans (by apply le_of_eq; ring))
  have hA : ∑ j, |fl (w j) * r j| ≤ (1 + u) * B + 6 / 10 ^ 200 := by
    have : ∀ j ∈ Finset.univ, |fl (w j) * r j| ≤ |fl (w j) * r j - w j * r j| + |r j * w j| := fun j _ => by
      have := abs_add_le (fl (w j) * r j - w j * r j) (w j * r j)
      rw [sub_add_cancel, mul_comm (w j) (r j)] at this
      rwa [mul_comm (w j) (r j)]
    refine (Finset.sum_le_sum this).trans ?_
    rw [Finset.sum_add_distrib]
    linarith
  have hA2 : ∑ j, |fl (w j) * r j| ≤ 2 * B + 6 / 10 ^ 200 := by
    have : u * B ≤ 1 * B := mul_le_mul_of_nonneg_right (hu.trans (by norm_num)) hB0
    linarith
  have h1 := dot_error hfl (a := fun j => fl (w j)) (x := r) hy (by omega) (hA2.trans (by
    have : (2 * 10 ^ 90 + 6 / 10 ^ 200 : ℝ) ≤ 10 ^ 100 := by norm_num
    linarith))
  have h2 : 2 * d * u * ∑ j, |fl (w j) * r j| ≤ 6 * u * ((1 + u) * B + 6 / 10 ^ 200) := by
    have : 2 * (d : ℝ) * u ≤ 6 * u := mul_le_mul_of_nonneg_right (by linarith) hu0.le
    exact mul_le_mul this hA (Finset.sum_nonneg fun j _ => abs_nonneg _) (by linarith)
  have h3 : |(fun j => fl (w j)) ⬝ᵥ r - w ⬝ᵥ r| ≤ u * B + 6 / 10 ^ 200 := by
    unfold dotProduct
    rw [← Finset.sum_sub_distrib]
    exact (Finset.abs_sum_le_sum_abs _ _).trans hsum
  have h4 : |y - w ⬝ᵥ r| ≤ |y - (fun j => fl (w j)) ⬝ᵥ r| + |(fun j => fl (w j)) ⬝ᵥ r - w ⬝ᵥ r| := by
    have := abs_add_le (y - (fun j => fl (w j)) ⬝ᵥ r) ((fun j => fl (w j)) ⬝ᵥ r - w ⬝ᵥ r)
    rwa [sub_add_sub_cancel] at this
  have h5 : 6 * u * (u * B) ≤ u * B := by
    have : 6 * u ≤ 1 := by
      have : (6 * (112 / 10 ^ 18) : ℝ) ≤ 1 := by norm_num
      linarith
    exact mul_le_of_le_one_left (by positivity) this
  have h6 : 6 * u * (6 / 10 ^ 200) ≤ 1 * (6 / 10 ^ 200 : ℝ) := by
    have : 6 * u ≤ 1 := by
      have : (6 * (112 / 10 ^ 18) : ℝ) ≤ 1 := by norm_num
      linarith
    exact mul_le_mul_of_nonneg_right this (by positivity)
  have h7 : (1 / 10 ^ 190 + 12 / 10 ^ 200 : ℝ) ≤ 1 / 10 ^ 180 := by norm_num
  have h8 : (1 * (6 / 10 ^ 200) + 6 / 10 ^ 200 : ℝ) = 12 / 10 ^ 200 := by ring
  nlinarith

/-- One term `s * p * p` of the quadratic form, relative to the square of the coordinate divided by the half extent. -/
theorem term_error {h y : ℝ} (h1 : 2 / 10 ^ 8 ≤ h) (h2 : h ≤ 10 ^ 10) (hy : |y / h| ≤ 10 ^ 7) :
    |fl (fl (fl (fl (1 / h) * fl (1 / h)) * y) * y) - (y / h) ^ 2| ≤ 12 * u * (y / h) ^ 2 + 1 / 10 ^ 150 := by
  have hu := u_le
  have hu0 := u_pos
  have hu1 : 110 / 10 ^ 18 ≤ u := by unfold unitRoundoff; norm_num
  have hh : 0 < h := lt_of_lt_of_le (by norm_num) h1
  obtain ⟨w, rfl⟩ : ∃ w, y = w * h := ⟨y / h, by field_simp⟩
  rw [mul_div_cancel_right₀ _ hh.ne'] at hy ⊢
  have hinv : 1 / h ≤ 10 ^ 8 := by rw [div_le_iff₀ hh]; norm_num at h1 ⊢; linarith
  have hinv0 : 0 < 1 / h := by positivity
  -- the reciprocal
  have e1 := fl_near hfl (x := 1 / h) (by rw [abs_of_pos hinv0]; exact hinv.trans (by norm_num))
  rw [abs_of_pos hinv0] at e1
  generalize fl (1 / h) = i at e1 ⊢
  have hα : |i * h - 1| ≤ 2 * u := by
    have : i * h - 1 = (i - 1 / h) * h := by field_simp
    rw [this, abs_mul, abs_of_pos hh]
    calc _ ≤ (u * (1 / h) + 1 / 10 ^ 200) * h := mul_le_mul_of_nonneg_right e1 hh.le
      _ = u + 1 / 10 ^ 200 * h := by field_simp
      _ ≤ u + 1 / 10 ^ 200 * 10 ^ 10 := by gcongr
      _ ≤ 2 * u := by
        have : (1 / 10 ^ 200 * 10 ^ 10 : ℝ) ≤ 110 / 10 ^ 18 := by norm_num
        linarith
  have hi : |i| ≤ 2 * 10 ^ 8 := by
    have := abs_add_le (i - 1 / h) (1 / h)
    rw [sub_add_cancel, abs_of_pos hinv0] at this
    have h3 : u * (1 / h) ≤ 1 * 10 ^ 8 := mul_le_mul (hu.trans (by norm_num)) hinv hinv0.le (by norm_num)
    have h4 : (1 / 10 ^ 200 : ℝ) ≤ 1 / 10 := by norm_num
    have : u * (1 / h) ≤ 1 / 2 * 10 ^ 8 := mul_le_mul (hu.trans (by norm_num)) hinv hinv0.le (by norm_num)
    norm_num at *; linarith
  -- its square
  have e2 := fl_near hfl (x := i * i) (by
    rw [abs_mul]
    calc |i| * |i| ≤ (2 * 10 ^ 8) * (2 * 10 ^ 8) := mul_le_mul hi hi (abs_nonneg _) (by norm_num)
      _ ≤ _ := by norm_num)
  rw [abs_of_nonneg (mul_self_nonneg i)] at e2
  have hsize : |fl (i * i)| ≤ 10 ^ 18 := by
    have := abs_add_le (fl (i * i) - i * i) (i * i)
    rw [sub_add_cancel, abs_of_nonneg (mul_self_nonneg i)] at this
    have hii : i * i ≤ 4 * 10 ^ 16 := by
      rw [← abs_mul_abs_self]
      calc |i| * |i| ≤ (2 * 10 ^ 8) * (2 * 10 ^ 8) := mul_le_mul hi hi (abs_nonneg _) (by norm_num)
        _ = _ := by norm_num
    have h3 : u * (i * i) ≤ 1 * (4 * 10 ^ 16) := mul_le_mul (hu.trans (by norm_num)) hii (mul_self_nonneg i) (by norm_num)
    have h4 : (1 / 10 ^ 200 : ℝ) ≤ 1 := by norm_num
    linarith
  generalize fl (i * i) = s at e2 hsize ⊢
  have hβ : |s * h ^ 2 - 1| ≤ 8 * u := by
    have a1 := abs_le.mp hα
    generalize hg : i * h = α at a1
    have hs2 : |s * h ^ 2 - α ^ 2| ≤ u * α ^ 2 + u := by
      have : s * h ^ 2 - α ^ 2 = (s - i * i) * h ^ 2 := by rw [← hg]; ring
      rw [this, abs_mul, abs_of_nonneg (sq_nonneg h)]
      calc _ ≤ (u * (i * i) + 1 / 10 ^ 200) * h ^ 2 := mul_le_mul_of_nonneg_right e2 (sq_nonneg h)
        _ = u * α ^ 2 + 1 / 10 ^ 200 * h ^ 2 := by rw [← hg]; ring
        _ ≤ u * α ^ 2 + 1 / 10 ^ 200 * (10 ^ 10) ^ 2 := by gcongr
        _ ≤ _ := by
          have : (1 / 10 ^ 200 * (10 ^ 10) ^ 2 : ℝ) ≤ 110 / 10 ^ 18 := by norm_num
          linarith
    have a2 := abs_le.mp hs2
    have hu2 : u * u ≤ u * (1 / 10 ^ 10) := mul_le_mul_of_nonneg_left (hu.trans (by norm_num)) hu0.le
    have hα2 : α ^ 2 ≤ 1 + 5 * u := by nlinarith
    have hα3 : 1 - 5 * u ≤ α ^ 2 := by nlinarith
    have huα : u * α ^ 2 ≤ 3 / 2 * u := by nlinarith
    rw [abs_le]
    constructor <;> nlinarith
  -- the first product
  have hwh : |w * h| ≤ 10 ^ 17 := by
    rw [abs_mul, abs_of_pos hh]
    calc |w| * h ≤ 10 ^ 7 * 10 ^ 10 := mul_le_mul hy h2 hh.le (by norm_num)
      _ = _ := by norm_num
  have e3 := fl_near hfl (x := s * (w * h)) (by
    rw [abs_mul]
    calc |s| * |w * h| ≤ 10 ^ 18 * 10 ^ 17 := mul_le_mul hsize hwh (abs_nonneg _) (by norm_num)
      _ ≤ _ := by norm_num)
  have ht : |fl (s * (w * h))| ≤ 10 ^ 36 := by
    have := abs_add_le (fl (s * (w * h)) - s * (w * h)) (s * (w * h))
    rw [sub_add_cancel] at this
    have h3 : |s * (w * h)| ≤ 10 ^ 18 * 10 ^ 17 := by
      rw [abs_mul]; exact mul_le_mul hsize hwh (abs_nonneg _) (by norm_num)
    have h4 : u * |s * (w * h)| ≤ 1 * (10 ^ 18 * 10 ^ 17) := mul_le_mul (hu.trans (by norm_num)) h3 (abs_nonneg _) (by norm_num)
    have h5 : (1 / 10 ^ 200 : ℝ) ≤ 1 := by norm_num
    norm_num at *; linarith
  generalize fl (s * (w * h)) = t at e3 ht ⊢
  -- the second product
  have e4 := fl_near hfl (x := t * (w * h)) (by
    rw [abs_mul]
    calc |t| * |w * h| ≤ 10 ^ 36 * 10 ^ 17 := mul_le_mul ht hwh (abs_nonneg _) (by norm_num)
      _ ≤ _ := by norm_num)
  generalize fl (t * (w * h)) = v at e4 ⊢
  -- everything relative to `w ^ 2`
  have hT : |t * (w * h) - s * h ^ 2 * w ^ 2| ≤ u * (|s * h ^ 2| * w ^ 2) + 1 / 10 ^ 180 := by
    have : t * (w * h) - s * h ^ 2 * w ^ 2 = (t - s * (w * h)) * (w * h) := by ring
    rw [this, abs_mul]
    calc _ ≤ (u * |s * (w * h)| + 1 / 10 ^ 200) * |w * h| := mul_le_mul_of_nonneg_right e3 (abs_nonneg _)
      _ = u * (|s * h ^ 2| * w ^ 2) + 1 / 10 ^ 200 * |w * h| := by
        rw [add_mul, mul_assoc, ← abs_mul, ← abs_of_nonneg (sq_nonneg w), ← abs_mul]
        congr 3; ring
      _ ≤ u * (|s * h ^ 2| * w ^ 2) + 1 / 10 ^ 200 * 10 ^ 17 := by gcongr
      _ ≤ _ := by
        have : (1 / 10 ^ 200 * 10 ^ 17 : ℝ) ≤ 1 / 10 ^ 180 := by norm_num
        linarith
  generalize s * h ^ 2 = β at hβ hT
  generalize t * (w * h) = g at hT e4
  have hw2 := sq_nonneg w
  generalize w ^ 2 = W at hT hw2 ⊢
  have b1 := abs_le.mp hβ
  have hu3 : 8 * u ≤ 1 / 10 := by
    have : (8 * (112 / 10 ^ 18) : ℝ) ≤ 1 / 10 := by norm_num
    linarith
  have hβ1 : |β| ≤ 11 / 10 := by rw [abs_le]; constructor <;> linarith
  have hβW : u * (|β| * W) ≤ 11 / 10 * (u * W) := by
    have : |β| * W ≤ 11 / 10 * W := mul_le_mul_of_nonneg_right hβ1 hw2
    have := mul_le_mul_of_nonneg_left this hu0.le
    linarith
  have hβW2 : |β * W - W| ≤ 8 * (u * W) := by
    have : β * W - W = (β - 1) * W := by ring
    rw [this, abs_mul, abs_of_nonneg hw2, ← mul_assoc]
    exact mul_le_mul_of_nonneg_right hβ hw2
  have huW : u * W ≤ 1 / 10 * W := mul_le_mul_of_nonneg_right (hu.trans (by norm_num)) hw2
  have huW0 : 0 ≤ u * W := by positivity
  have t1 := abs_le.mp hT
  have t2 := abs_le.mp hβW2
  have h180 : (0 : ℝ) ≤ 1 / 10 ^ 180 := by positivity
  have hg : |g| ≤ 2 * W + 1 / 10 ^ 180 := by rw [abs_le]; constructor <;> linarith
  have hug : u * |g| ≤ 2 * (u * W) + 1 / 10 ^ 180 := by
    have := mul_le_mul_of_nonneg_left hg hu0.le
    have h3 : u * (1 / 10 ^ 180) ≤ 1 * (1 / 10 ^ 180 : ℝ) := mul_le_mul_of_nonneg_right (hu.trans (by norm_num)) h180
    linarith
  have t4 := abs_le.mp e4
  have h5 : (2 * (1 / 10 ^ 180) + 1 / 10 ^ 200 : ℝ) ≤ 1 / 10 ^ 150 := by norm_num
  rw [abs_le]
  constructor <;> linarith

/-- The computed mask is the one of the vanishing half extents. -/
theorem zFloat_iff {d : ℕ} (e : Ellipsoid ℝ d) (i : Fin d) (hh : e.halfExtents i = 0 ∨ 2 / 10 ^ 8 ≤ e.halfExtents i) :
    e.zFloat fl i = true ↔ e.halfExtents i = 0 := by
  have h1 := fl_near hfl (x := 1 / 10 ^ 8) (by rw [abs_of_pos (by positivity)]; norm_num)
  rw [abs_of_pos (by positivity : (0 : ℝ) < 1 / 10 ^ 8)] at h1
  have h2 : |fl (1 / 10 ^ 8) - 1 / 10 ^ 8| ≤ 1 / 10 ^ 20 := by
    have : (112 / 10 ^ 18 : ℝ) * (1 / 10 ^ 8) + 1 / 10 ^ 200 ≤ 1 / 10 ^ 20 := by norm_num
    have : u * (1 / 10 ^ 8) ≤ 112 / 10 ^ 18 * (1 / 10 ^ 8) := by have := u_le; gcongr
    linarith
  have h3 := abs_le.mp h2
  have h4 : (100000000 : ℝ) = 10 ^ 8 := by norm_num
  unfold Ellipsoid.zFloat
  rw [decide_eq_true_eq, h4]
  rcases hh with h | h
  · rw [h]; simp only [abs_zero, iff_true]; norm_num at h3 ⊢; linarith
  · have hpos : 0 < e.halfExtents i := lt_of_lt_of_le (by norm_num) h
    rw [abs_of_pos hpos]
    constructor
    · intro h5; exfalso; norm_num at *; linarith
    · intro h5; exact absurd h5 hpos.ne'

/-- What is assumed of an ellipsoid and a point: at most three dimensions, each half extent zero or between `2e-8` and `1e10`,
entries of the rotation that are not larger than those of a rotation, and a point whose distance from the center along each
coordinate axis is at most 300000 times each half extent (300000 where it is zero). -/
structure EllipsoidScale {d : ℕ} (e : Ellipsoid ℝ d) (p : Fin d → ℝ) : Prop where
  dim : d ≤ 3
  extents : ∀ i, e.halfExtents i = 0 ∨ 2 / 10 ^ 8 ≤ e.halfExtents i ∧ e.halfExtents i ≤ 10 ^ 10
  rotation : ∀ j i, |e.rotation j i| ≤ 101 / 100
  zero : ∀ i, e.halfExtents i = 0 → ∀ j, |p j - e.center j| ≤ 3 * 10 ^ 5
  ratio : ∀ i, e.halfExtents i ≠ 0 → ∀ j, |p j - e.center j| ≤ 3 * 10 ^ 5 * e.halfExtents i

/-- The computed coordinates. -/
theorem coord_close {d : ℕ} {e : Ellipsoid ℝ d} {p : Fin d → ℝ} (hs : EllipsoidScale e p) {i : Fin d} {y : ℝ}
    (hy : FlDot fl (List.ofFn fun j => (fl (p j - e.center j), e.rotation j i)) y) :
    |y - (e.rotationᵀ *ᵥ (p - e.center)) i| ≤ 9 / 10 ^ 10 * (if e.halfExtents i = 0 then 1 else e.halfExtents i) := by
  set H : ℝ := if e.halfExtents i = 0 then 1 else e.halfExtents i with hH
  have hH1 : 2 / 10 ^ 8 ≤ H ∧ H ≤ 10 ^ 10 ∧ ∀ j, |p j - e.center j| ≤ 3 * 10 ^ 5 * H := by
    rw [hH]; split_ifs with h0
    · exact ⟨by norm_num, by norm_num, fun j => by rw [mul_one]; exact hs.zero i h0 j⟩
    · rcases hs.extents i with h | h
      · exact absurd h h0
      · exact ⟨h.1, h.2, hs.ratio i h0⟩
  obtain ⟨hH1, hH2, hw⟩ := hH1
  have hH0 : 0 < H := lt_of_lt_of_le (by norm_num) hH1
  have hd' : (d : ℝ) ≤ 3 := by exact_mod_cast hs.dim
  have hB : ∑ j, |e.rotation j i * (p j - e.center j)| ≤ 10 ^ 6 * H := by
    have : ∀ j ∈ Finset.univ, |e.rotation j i * (p j - e.center j)| ≤ 101 / 100 * (3 * 10 ^ 5 * H) := fun j _ => by
      rw [abs_mul]; exact mul_le_mul (hs.rotation j i) (hw j) (abs_nonneg _) (by norm_num)
    refine (Finset.sum_le_card_nsmul _ _ _ this).trans ?_
    simp only [Finset.card_univ, Fintype.card_fin, nsmul_eq_mul]
    have h1 : (d : ℝ) * (101 / 100 * (3 * 10 ^ 5 * H)) ≤ 3 * (101 / 100 * (3 * 10 ^ 5 * H)) :=
      mul_le_mul_of_nonneg_right hd' (by positivity)
    norm_num at h1 ⊢; linarith
  have h1 := coord_error hfl hs.dim (w := fun j => p j - e.center j) hy (fun j => hs.rotation j i) hB
    (fun j => (hw j).trans (by
      calc 3 * 10 ^ 5 * H ≤ 3 * 10 ^ 5 * 10 ^ 10 := by gcongr
        _ ≤ _ := by norm_num))
    (by calc 10 ^ 6 * H ≤ 10 ^ 6 * 10 ^ 10 := by gcongr
          _ ≤ _ := by norm_num)
  have h2 : (fun j => p j - e.center j) ⬝ᵥ (fun j => e.rotation j i) = (e.rotationᵀ *ᵥ (p - e.center)) i := by
    rw [dotProduct_comm]; rfl
  rw [h2] at h1
  refine h1.trans ?_
  have h3 : 8 * u * (10 ^ 6 * H) ≤ 8 * (112 / 10 ^ 18) * (10 ^ 6 * H) := by have := u_le; gcongr
  have h4 : (1 / 10 ^ 180 : ℝ) ≤ 4 / 10 ^ 12 * (2 / 10 ^ 8) := by norm_num
  have h5 : (4 / 10 ^ 12 * (2 / 10 ^ 8) : ℝ) ≤ 4 / 10 ^ 12 * H := by gcongr
  have h6 : 8 * (112 / 10 ^ 18) * (10 ^ 6 * H) = 896 / 10 ^ 12 * H := by ring
  have h7 : 9 / 10 ^ 10 * H = 900 / 10 ^ 12 * H := by ring
  rw [h7]; linarith

/-- The computed quadratic form and the exact one, term by term. -/
theorem form_terms {d : ℕ} {e : Ellipsoid ℝ d} {p : Fin d → ℝ} (hs : EllipsoidScale e p) {ps : Fin d → ℝ}
    (hps : ∀ i, FlDot fl (List.ofFn fun j => (fl (p j - e.center j), e.rotation j i)) (ps i)) {i : Fin d}
    (hi : e.halfExtents i ≠ 0) :
    |ps i / e.halfExtents i - (e.rotationᵀ *ᵥ (p - e.center)) i / e.halfExtents i| ≤ 9 / 10 ^ 10 ∧
      |fl (fl (fl (fl (1 / e.halfExtents i) * fl (1 / e.halfExtents i)) * ps i) * ps i) - (ps i / e.halfExtents i) ^ 2| ≤
        12 * u * (ps i / e.halfExtents i) ^ 2 + 1 / 10 ^ 150 := by
  rcases hs.extents i with h0 | ⟨h1, h2⟩
  · exact absurd h0 hi
  have hpos : 0 < e.halfExtents i := lt_of_lt_of_le (by norm_num) h1
  have hc := coord_close hfl hs (hps i)
  rw [if_neg hi] at hc
  have hdiv : |ps i / e.halfExtents i - (e.rotationᵀ *ᵥ (p - e.center)) i / e.halfExtents i| ≤ 9 / 10 ^ 10 := by
    rw [← sub_div, abs_div, abs_of_pos hpos, div_le_iff₀ hpos]; exact hc
  refine ⟨hdiv, term_error hfl h1 h2 ?_⟩
  have hy : |(e.rotationᵀ *ᵥ (p - e.center)) i| ≤ 10 ^ 6 * e.halfExtents i := by
    have hd' : (d : ℝ) ≤ 3 := by exact_mod_cast hs.dim
    have : ∀ j ∈ Finset.univ, |e.rotation j i * (p j - e.center j)| ≤ 101 / 100 * (3 * 10 ^ 5 * e.halfExtents i) := fun j _ => by
      rw [abs_mul]; exact mul_le_mul (hs.rotation j i) (hs.ratio i hi j) (abs_nonneg _) (by norm_num)
    have h3 := (Finset.abs_sum_le_sum_abs _ _).trans (Finset.sum_le_card_nsmul _ _ _ this)
    simp only [Finset.card_univ, Fintype.card_fin, nsmul_eq_mul] at h3
    have h4 : (d : ℝ) * (101 / 100 * (3 * 10 ^ 5 * e.halfExtents i)) ≤ 3 * (101 / 100 * (3 * 10 ^ 5 * e.halfExtents i)) :=
      mul_le_mul_of_nonneg_right hd' (by positivity)
    have h5 : (e.rotationᵀ *ᵥ (p - e.center)) i = ∑ j, e.rotation j i * (p j - e.center j) := rfl
    rw [h5]
    norm_num at h3 h4 ⊢; linarith
  have hy2 : |(e.rotationᵀ *ᵥ (p - e.center)) i / e.halfExtents i| ≤ 10 ^ 6 := by
    rw [abs_div, abs_of_pos hpos, div_le_iff₀ hpos]; exact hy
  have := abs_add_le (ps i / e.halfExtents i - (e.rotationᵀ *ᵥ (p - e.center)) i / e.halfExtents i)
    ((e.rotationᵀ *ᵥ (p - e.center)) i / e.halfExtents i)
  rw [sub_add_cancel] at this
  norm_num at *; linarith

/-- The exact form is a sum over the nonzero half extents. -/
theorem form_filter {d : ℕ} (e : Ellipsoid ℝ d) (hh : ∀ i, e.halfExtents i = 0 ∨ 2 / 10 ^ 8 ≤ e.halfExtents i) (y : Fin d → ℝ) :
    ∑ i, (y i / e.halfExtents i) ^ 2 =
      ∑ i ∈ Finset.univ.filter (fun i => e.zFloat fl i = false), (y i / e.halfExtents i) ^ 2 := by
  symm
  refine Finset.sum_subset (Finset.filter_subset _ _) fun i _ hi => ?_
  simp only [Finset.mem_filter, Finset.mem_univ, true_and, Bool.not_eq_false, zFloat_iff hfl e i (hh i)] at hi
  rw [hi]; simp

/-- Acceptance with room for errors made before the test. -/
theorem ellipsoid_accepts_slack {d : ℕ} (e : Ellipsoid ℝ d) (p : Fin d → ℝ) (hs : EllipsoidScale e p)
    (hz : ∀ i, e.halfExtents i = 0 → |(e.rotationᵀ *ᵥ (p - e.center)) i| ≤ 8 / 10 ^ 9)
    (hq : ∑ i, ((e.rotationᵀ *ᵥ (p - e.center)) i / e.halfExtents i) ^ 2 ≤ 1 + 2 / 10 ^ 9) {answer : Bool}
    (h : e.containsFloat fl p (fl (1 / 10 ^ 8)) answer) : answer = true := by
  obtain ⟨ps, q, hps, hsum, hiff⟩ := h
  have hh : ∀ i, e.halfExtents i = 0 ∨ 2 / 10 ^ 8 ≤ e.halfExtents i := fun i => (hs.extents i).imp id And.left
  rw [hiff]
  refine ⟨fun i hi => ?_, ?_⟩
  · rw [zFloat_iff hfl e i (hh i)] at hi
    have h1 := coord_close hfl hs (hps i)
    rw [if_pos hi, mul_one] at h1
    have h0 := hz i hi
    have h6 := abs_add_le (ps i - (e.rotationᵀ *ᵥ (p - e.center)) i) ((e.rotationᵀ *ᵥ (p - e.center)) i)
    rw [sub_add_cancel] at h6
    have h2 := fl_near hfl (x := 1 / 10 ^ 8) (by rw [abs_of_pos (by positivity)]; norm_num)
    rw [abs_of_pos (by positivity : (0 : ℝ) < 1 / 10 ^ 8)] at h2
    have h3 : u * (1 / 10 ^ 8) ≤ 112 / 10 ^ 18 * (1 / 10 ^ 8) := by have := u_le; gcongr
    have h4 := (abs_le.mp h2).1
    have h5 : (9 / 10 ^ 10 + 8 / 10 ^ 9 : ℝ) ≤ 1 / 10 ^ 8 - 112 / 10 ^ 18 * (1 / 10 ^ 8) - 1 / 10 ^ 200 := by norm_num
    linarith
  · set F := Finset.univ.filter fun i => e.zFloat fl i = false with hF
    set v : Fin d → ℝ := fun i => fl (fl (fl (fl (1 / e.halfExtents i) * fl (1 / e.halfExtents i)) * ps i) * ps i) with hv
    set z : Fin d → ℝ := fun i => (e.rotationᵀ *ᵥ (p - e.center)) i / e.halfExtents i with hzdef
    rw [form_filter hfl e hh] at hq
    change ∑ i ∈ F, z i ^ 2 ≤ 1 + 2 / 10 ^ 9 at hq
    have hcard : (F.card : ℝ) ≤ 3 := by
      have := (Finset.card_filter_le Finset.univ fun i => e.zFloat fl i = false).trans_eq (Finset.card_fin d)
      exact_mod_cast this.trans hs.dim
    have hterm : ∀ i ∈ F, |v i - z i ^ 2| ≤ 19 / 10 ^ 10 := fun i hi => by
      have hi0 : e.halfExtents i ≠ 0 := fun h0 => by
        rw [hF, Finset.mem_filter] at hi
        rw [(zFloat_iff hfl e i (hh i)).mpr h0] at hi
        exact absurd hi.2 (by simp)
      obtain ⟨t1, t2⟩ := form_terms hfl hs hps hi0
      change |ps i / e.halfExtents i - z i| ≤ _ at t1
      change |v i - _| ≤ _ at t2
      generalize ps i / e.halfExtents i = w at t1 t2
      have hz1 : z i ^ 2 ≤ 1 + 2 / 10 ^ 9 := (Finset.single_le_sum (f := fun i => z i ^ 2) (fun k _ => sq_nonneg _) hi).trans hq
      have hz2 : |z i| ≤ 1 + 1 / 10 ^ 9 := abs_le_of_sq_le_sq (hz1.trans (by norm_num)) (by norm_num)
      generalize v i = V at t2 ⊢
      generalize z i = Z at t1 hz2 ⊢
      have a2 := abs_le.mp hz2
      have a1 := abs_le.mp t1
      have hw : w ^ 2 ≤ 2 := by norm_num at a1 ⊢; nlinarith
      have hu := u_le
      have hW : 12 * u * w ^ 2 ≤ 12 * (112 / 10 ^ 18) * 2 := by have := u_pos; gcongr
      have hwz : |w ^ 2 - Z ^ 2| ≤ 18 / 10 ^ 10 + 3 / 10 ^ 18 := by
        have : w ^ 2 - Z ^ 2 = (w - Z) * (2 * Z + (w - Z)) := by ring
        rw [this, abs_mul]
        have h1 : |2 * Z + (w - Z)| ≤ 2 + 2 / 10 ^ 9 + 9 / 10 ^ 10 := by
          refine (abs_add_le _ _).trans ?_
          rw [abs_mul, abs_two]; linarith
        calc _ ≤ 9 / 10 ^ 10 * (2 + 2 / 10 ^ 9 + 9 / 10 ^ 10 : ℝ) := mul_le_mul t1 h1 (abs_nonneg _) (by norm_num)
          _ ≤ _ := by norm_num
      have hfin : (12 * (112 / 10 ^ 18) * 2 + 1 / 10 ^ 150 + (18 / 10 ^ 10 + 3 / 10 ^ 18) : ℝ) ≤ 19 / 10 ^ 10 := by norm_num
      have : V - Z ^ 2 = (V - w ^ 2) + (w ^ 2 - Z ^ 2) := by ring
      rw [this]
      exact (abs_add_le _ _).trans (by linarith)
    have hsumz : |∑ i ∈ F, v i - ∑ i ∈ F, z i ^ 2| ≤ 3 * (19 / 10 ^ 10) := by
      rw [← Finset.sum_sub_distrib]
      refine (Finset.abs_sum_le_sum_abs _ _).trans ((Finset.sum_le_card_nsmul _ _ _ hterm).trans ?_)
      rw [nsmul_eq_mul]
      exact mul_le_mul_of_nonneg_right hcard (by norm_num)
    have habs : ∑ i ∈ F, |v i| ≤ 2 := by
      have : ∀ i ∈ F, |v i| ≤ 19 / 10 ^ 10 + z i ^ 2 := fun i hi => by
        have h1 := abs_add_le (v i - z i ^ 2) (z i ^ 2)
        rw [sub_add_cancel, abs_of_nonneg (sq_nonneg (z i))] at h1
        exact h1.trans (by linarith [hterm i hi])
      refine (Finset.sum_le_sum this).trans ?_
      rw [Finset.sum_add_distrib, Finset.sum_const, nsmul_eq_mul]
      have : (F.card : ℝ) * (19 / 10 ^ 10) ≤ 3 * (19 / 10 ^ 10) := mul_le_mul_of_nonneg_right hcard (by norm_num)
      norm_num at this ⊢; linarith
    have e1 : ((F.toList.map v).map abs).sum = ∑ i ∈ F, |v i| := by
      rw [List.map_map]; exact Finset.sum_map_toList F _
    have e2 : (F.toList.map v).sum = ∑ i ∈ F, v i := Finset.sum_map_toList F v
    have hlen : (F.toList.map v).length = F.card := by simp
    have hcardN : F.card ≤ 3 := by exact_mod_cast hcard
    have hqe := C105_sum hfl hsum (by rw [hlen]; omega) (by rw [e1]; exact habs.trans (by norm_num))
    rw [e1, e2, hlen] at hqe
    have hub : 2 * (F.card : ℝ) * 2 ^ (-53 : ℤ) * ∑ i ∈ F, |v i| ≤ 2 * 3 * (112 / 10 ^ 18) * 2 := by
      have : (2 : ℝ) ^ (-53 : ℤ) ≤ 112 / 10 ^ 18 := u_le
      gcongr
    have hth := (abs_le.mp (threshold_error hfl (b := 1) (by norm_num))).1
    have a1 := (abs_le.mp hqe).2
    have a2 := (abs_le.mp hsumz).2
    have hfin : (2 * 3 * (112 / 10 ^ 18) * 2 + 1 / 10 ^ 190 + 3 * (19 / 10 ^ 10) + 2 / 10 ^ 9 : ℝ) ≤ 1 / 10 ^ 8 - 13 / 10 ^ 10 := by norm_num
    linarith

/-- C105: `Ellipsoid.contains` with rounding: under `EllipsoidScale` a point of the ellipsoid is accepted, whatever the order of
the additions. -/
theorem C105_ellipsoid_accepts {d : ℕ} (e : Ellipsoid ℝ d) (p : Fin d → ℝ) (hs : EllipsoidScale e p)
    (hz : ∀ i, e.halfExtents i = 0 → (e.rotationᵀ *ᵥ (p - e.center)) i = 0)
    (hq : ∑ i, ((e.rotationᵀ *ᵥ (p - e.center)) i / e.halfExtents i) ^ 2 ≤ 1) {answer : Bool}
    (h : e.containsFloat fl p (fl (1 / 10 ^ 8)) answer) : answer = true :=
  ellipsoid_accepts_slack hfl e p hs (fun i hi => by rw [hz i hi, abs_zero]; norm_num) (hq.trans (by norm_num)) h

/-- C105: `Ellipsoid.contains` with rounding: under `EllipsoidScale` a point that is accepted satisfies the exact conditions up to
`2e-8`. -/
theorem C105_ellipsoid_sound {d : ℕ} (e : Ellipsoid ℝ d) (p : Fin d → ℝ) (hs : EllipsoidScale e p)
    (h : e.containsFloat fl p (fl (1 / 10 ^ 8)) true) :
    (∀ i, e.halfExtents i = 0 → |(e.rotationᵀ *ᵥ (p - e.center)) i| ≤ 2 / 10 ^ 8) ∧
      ∑ i, ((e.rotationᵀ *ᵥ (p - e.center)) i / e.halfExtents i) ^ 2 ≤ 1 + 2 / 10 ^ 8 := by
  obtain ⟨ps, q, hps, hsum, hiff⟩ := h
  have hh : ∀ i, e.halfExtents i = 0 ∨ 2 / 10 ^ 8 ≤ e.halfExtents i := fun i => (hs.extents i).imp id And.left
  obtain ⟨hacc1, hacc2⟩ := hiff.mp rfl
  refine ⟨fun i hi => ?_, ?_⟩
  · have h0 := hacc1 i ((zFloat_iff hfl e i (hh i)).mpr hi)
    have h1 := coord_close hfl hs (hps i)
    rw [if_pos hi, mul_one] at h1
    have h2 := fl_near hfl (x := 1 / 10 ^ 8) (by rw [abs_of_pos (by positivity)]; norm_num)
    rw [abs_of_pos (by positivity : (0 : ℝ) < 1 / 10 ^ 8)] at h2
    have h3 : u * (1 / 10 ^ 8) ≤ 112 / 10 ^ 18 * (1 / 10 ^ 8) := by have := u_le; gcongr
    have h4 := (abs_le.mp h2).2
    have h5 : (9 / 10 ^ 10 + 1 / 10 ^ 8 + 112 / 10 ^ 18 * (1 / 10 ^ 8) + 1 / 10 ^ 200 : ℝ) ≤ 2 / 10 ^ 8 := by norm_num
    have h6 := abs_add_le ((e.rotationᵀ *ᵥ (p - e.center)) i - ps i) (ps i)
    rw [sub_add_cancel, abs_sub_comm] at h6
    linarith
  · set F := Finset.univ.filter fun i => e.zFloat fl i = false with hF
    set v : Fin d → ℝ := fun i => fl (fl (fl (fl (1 / e.halfExtents i) * fl (1 / e.halfExtents i)) * ps i) * ps i) with hv
    set z : Fin d → ℝ := fun i => (e.rotationᵀ *ᵥ (p - e.center)) i / e.halfExtents i with hzdef
    rw [form_filter hfl e hh]
    change ∑ i ∈ F, z i ^ 2 ≤ _
    have hcard : (F.card : ℝ) ≤ 3 := by
      have := (Finset.card_filter_le Finset.univ fun i => e.zFloat fl i = false).trans_eq (Finset.card_fin d)
      exact_mod_cast this.trans hs.dim
    have hcardN : F.card ≤ 3 := by exact_mod_cast hcard
    have hterms : ∀ i ∈ F, |ps i / e.halfExtents i - z i| ≤ 9 / 10 ^ 10 ∧
        |v i - (ps i / e.halfExtents i) ^ 2| ≤ 12 * u * (ps i / e.halfExtents i) ^ 2 + 1 / 10 ^ 150 := fun i hi => by
      have hi0 : e.halfExtents i ≠ 0 := fun h0 => by
        rw [hF, Finset.mem_filter] at hi
        rw [(zFloat_iff hfl e i (hh i)).mpr h0] at hi
        exact absurd hi.2 (by simp)
      exact form_terms hfl hs hps hi0
    have hu := u_le
    have hu0 := u_pos
    have hu12 : 12 * u ≤ 1 / 10 ^ 10 := by
      have : (12 * (112 / 10 ^ 18) : ℝ) ≤ 1 / 10 ^ 10 := by norm_num
      linarith
    -- the terms are not below zero by more than the underflow
    have hnear : ∀ i ∈ F, |v i| ≤ v i + 2 / 10 ^ 150 := fun i hi => by
      have h1 := (abs_le.mp (hterms i hi).2).1
      have h2 : 12 * u * (ps i / e.halfExtents i) ^ 2 ≤ 1 * (ps i / e.halfExtents i) ^ 2 :=
        mul_le_mul_of_nonneg_right (hu12.trans (by norm_num)) (sq_nonneg _)
      have h3 : -(1 / 10 ^ 150) ≤ v i := by linarith
      have h4 : (0 : ℝ) ≤ 2 / 10 ^ 150 := by positivity
      have h5 : (2 / 10 ^ 150 : ℝ) = 2 * (1 / 10 ^ 150) := by ring
      rw [abs_le]; constructor <;> linarith
    have hvle : ∀ i ∈ F, |v i| ≤ 3 * 10 ^ 14 := fun i hi => by
      have h1 := (hterms i hi).2
      have h2 : |ps i / e.halfExtents i| ≤ 10 ^ 7 := by
        have hi0 : e.halfExtents i ≠ 0 := fun h0 => by
          rw [hF, Finset.mem_filter] at hi
          rw [(zFloat_iff hfl e i (hh i)).mpr h0] at hi
          exact absurd hi.2 (by simp)
        rcases hs.extents i with h0 | ⟨g1, _⟩
        · exact absurd h0 hi0
        have hpos : 0 < e.halfExtents i := lt_of_lt_of_le (by norm_num) g1
        have hd' : (d : ℝ) ≤ 3 := by exact_mod_cast hs.dim
        have : ∀ j ∈ Finset.univ, |e.rotation j i * (p j - e.center j)| ≤ 101 / 100 * (3 * 10 ^ 5 * e.halfExtents i) := fun j _ => by
          rw [abs_mul]; exact mul_le_mul (hs.rotation j i) (hs.ratio i hi0 j) (abs_nonneg _) (by norm_num)
        have h3 := (Finset.abs_sum_le_sum_abs _ _).trans (Finset.sum_le_card_nsmul _ _ _ this)
        simp only [Finset.card_univ, Fintype.card_fin, nsmul_eq_mul] at h3
        have h4 : (d : ℝ) * (101 / 100 * (3 * 10 ^ 5 * e.halfExtents i)) ≤ 3 * (101 / 100 * (3 * 10 ^ 5 * e.halfExtents i)) :=
          mul_le_mul_of_nonneg_right hd' (by positivity)
        have hz2 : |z i| ≤ 10 ^ 6 := by
          change |(∑ j, e.rotation j i * (p j - e.center j)) / e.halfExtents i| ≤ 10 ^ 6
          rw [abs_div, abs_of_pos hpos, div_le_iff₀ hpos]
          norm_num at h3 h4 ⊢; linarith
        have h5 := abs_add_le (ps i / e.halfExtents i - z i) (z i)
        rw [sub_add_cancel] at h5
        have h6 := (hterms i hi).1
        norm_num at *; linarith
      have h3 : (ps i / e.halfExtents i) ^ 2 ≤ 10 ^ 14 := by
        rw [← sq_abs]
        calc _ ≤ ((10 : ℝ) ^ 7) ^ 2 := by gcongr
          _ = _ := by norm_num
      have h4 : 12 * u * (ps i / e.halfExtents i) ^ 2 ≤ 1 * (ps i / e.halfExtents i) ^ 2 :=
        mul_le_mul_of_nonneg_right (hu12.trans (by norm_num)) (sq_nonneg _)
      have h5 := abs_add_le (v i - (ps i / e.halfExtents i) ^ 2) ((ps i / e.halfExtents i) ^ 2)
      rw [sub_add_cancel, abs_of_nonneg (sq_nonneg (ps i / e.halfExtents i))] at h5
      have h6 : (1 / 10 ^ 150 : ℝ) ≤ 1 := by norm_num
      linarith
    have e1 : ((F.toList.map v).map abs).sum = ∑ i ∈ F, |v i| := by
      rw [List.map_map]; exact Finset.sum_map_toList F _
    have e2 : (F.toList.map v).sum = ∑ i ∈ F, v i := Finset.sum_map_toList F v
    have hlen : (F.toList.map v).length = F.card := by simp
    have hqe := C105_sum hfl hsum (by rw [hlen]; omega) (by
      rw [e1]
      refine (Finset.sum_le_card_nsmul _ _ _ hvle).trans ?_
      rw [nsmul_eq_mul]
      calc (F.card : ℝ) * (3 * 10 ^ 14) ≤ 3 * (3 * 10 ^ 14) := mul_le_mul_of_nonneg_right hcard (by norm_num)
        _ ≤ _ := by norm_num)
    rw [e1, e2, hlen] at hqe
    have hA0 : 0 ≤ ∑ i ∈ F, |v i| := Finset.sum_nonneg fun i _ => abs_nonneg _
    have hub : 2 * (F.card : ℝ) * 2 ^ (-53 : ℤ) * ∑ i ∈ F, |v i| ≤ 2 * 3 * (112 / 10 ^ 18) * ∑ i ∈ F, |v i| := by
      have : (2 : ℝ) ^ (-53 : ℤ) ≤ 112 / 10 ^ 18 := u_le
      gcongr
    have hAv : ∑ i ∈ F, |v i| ≤ ∑ i ∈ F, v i + 6 / 10 ^ 150 := by
      refine (Finset.sum_le_sum hnear).trans ?_
      rw [Finset.sum_add_distrib, Finset.sum_const, nsmul_eq_mul]
      have : (F.card : ℝ) * (2 / 10 ^ 150) ≤ 3 * (2 / 10 ^ 150) := mul_le_mul_of_nonneg_right hcard (by positivity)
      have h6 : (3 * (2 / 10 ^ 150) : ℝ) = 6 / 10 ^ 150 := by ring
      linarith
    have hth := (abs_le.mp (threshold_error hfl (b := 1) (by norm_num))).2
    have hqv := (abs_le.mp hqe).1
    have hsumv : ∑ i ∈ F, v i ≤ 1 + 115 / 10 ^ 10 := by
      have h5 : (1 / 10 ^ 190 : ℝ) ≤ 1 / 10 ^ 12 := by norm_num
      have h6 : (6 / 10 ^ 150 : ℝ) ≤ 1 / 10 ^ 12 := by norm_num
      norm_num at *; linarith
    -- the exact terms
    have hz : ∀ i ∈ F, z i ^ 2 ≤ v i + 25 / 10 ^ 10 := fun i hi => by
      have hvi : |v i| ≤ 2 := by
        have h1 := Finset.single_le_sum (f := fun i => |v i|) (fun k _ => abs_nonneg _) hi
        have h6 : (6 / 10 ^ 150 : ℝ) ≤ 1 / 10 ^ 12 := by norm_num
        norm_num at *; linarith
      obtain ⟨t1, t2⟩ := hterms i hi
      generalize ps i / e.halfExtents i = w at t1 t2
      have b1 := (abs_le.mp t2).1
      have hvi2 := (abs_le.mp hvi).2
      have h6 : (1 / 10 ^ 150 : ℝ) ≤ 1 / 10 ^ 12 := by norm_num
      have hw12 : 12 * u * w ^ 2 ≤ 12 * (112 / 10 ^ 18) * w ^ 2 := by gcongr
      have hv1 : v i ≤ 1 + 116 / 10 ^ 10 := by
        -- the other terms are almost nonnegative
        have h1 := Finset.sum_erase_add F v hi
        have h2 : -(6 / 10 ^ 150 : ℝ) ≤ ∑ k ∈ F.erase i, v k := by
          have h3 : ∀ k ∈ F.erase i, -(2 / 10 ^ 150 : ℝ) ≤ v k := fun k hk => by
            have := hnear k (Finset.mem_of_mem_erase hk)
            have := abs_nonneg (v k)
            linarith
          have h4 := Finset.card_nsmul_le_sum _ _ _ h3
          rw [nsmul_eq_mul] at h4
          have h5 : ((F.erase i).card : ℝ) ≤ 3 := by
            have := Finset.card_le_card (Finset.erase_subset i F)
            exact_mod_cast this.trans hcardN
          have h7 : ((F.erase i).card : ℝ) * (2 / 10 ^ 150) ≤ 3 * (2 / 10 ^ 150) := mul_le_mul_of_nonneg_right h5 (by positivity)
          have h8 : (3 * (2 / 10 ^ 150) : ℝ) = 6 / 10 ^ 150 := by ring
          linarith
        have h9 : (6 / 10 ^ 150 : ℝ) ≤ 1 / 10 ^ 12 := by norm_num
        norm_num at *; linarith
      have hw : w ^ 2 ≤ 121 / 100 := by norm_num at *; linarith
      have hw1 : |w| ≤ 11 / 10 := abs_le_of_sq_le_sq (by norm_num at hw ⊢; linarith) (by norm_num)
      have hwz : z i ^ 2 - w ^ 2 ≤ 9 / 10 ^ 10 * (22 / 10 + 9 / 10 ^ 10) := by
        have : z i ^ 2 - w ^ 2 = (z i - w) * (2 * w + (z i - w)) := by ring
        rw [this]
        rw [abs_sub_comm] at t1
        refine (le_abs_self _).trans ?_
        rw [abs_mul]
        refine mul_le_mul t1 ?_ (abs_nonneg _) (by norm_num)
        refine (abs_add_le _ _).trans ?_
        rw [abs_mul, abs_two]; linarith
      norm_num at *; linarith
    have hfinal := Finset.sum_le_sum hz
    rw [Finset.sum_add_distrib, Finset.sum_const, nsmul_eq_mul] at hfinal
    have h7 : (F.card : ℝ) * (25 / 10 ^ 10) ≤ 3 * (25 / 10 ^ 10) := mul_le_mul_of_nonneg_right hcard (by norm_num)
    norm_num at *; linarith

/-- C105: for an orthogonal rotation: the points of the ellipsoid are accepted, and if no half extent is zero every accepted point
is in the ellipsoid with half extents larger by the factor `1 + 1e-8`. -/
theorem C105_ellipsoid {d : ℕ} (e : Ellipsoid ℝ d) (hO : Spec.Orthogonal e.rotation) (p : Fin d → ℝ) (hs : EllipsoidScale e p) :
    (p ∈ Spec.ellipsoid e.halfExtents e.rotation e.center → ¬ e.containsFloat fl p (fl (1 / 10 ^ 8)) false) ∧
      ((∀ i, e.halfExtents i ≠ 0) → e.containsFloat fl p (fl (1 / 10 ^ 8)) true →
        p ∈ Spec.ellipsoid (fun i => e.halfExtents i * (1 + 1 / 10 ^ 8)) e.rotation e.center) := by
  constructor
  · intro hin h
    rw [Spec_ellipsoid_iff hO] at hin
    exact absurd (C105_ellipsoid_accepts hfl e p hs hin.1 hin.2 h) (by simp)
  · intro h0 h
    rw [Spec_ellipsoid_iff hO]
    have hsound := (C105_ellipsoid_sound hfl e p hs h).2
    constructor
    · intro i hi
      exact absurd hi (mul_ne_zero (h0 i) (by norm_num))
    · have e1 : ∀ i, ((e.rotationᵀ *ᵥ (p - e.center)) i / (e.halfExtents i * (1 + 1 / 10 ^ 8))) ^ 2 =
          ((e.rotationᵀ *ᵥ (p - e.center)) i / e.halfExtents i) ^ 2 * (1 / (1 + 1 / 10 ^ 8) ^ 2) := fun i => by
        rw [← div_div, div_pow _ (1 + 1 / 10 ^ 8 : ℝ)]; ring
      simp only [e1]
      rw [← Finset.sum_mul, mul_one_div, div_le_one (by positivity)]
      exact hsound.trans (by norm_num)

/-- C105: Beyond these sizes the tolerance does not cover the rounding: the half-space `x + y + z ≤ 5 / 2 ^ 27` contains a point
with coordinates up to `2 ^ 28` that `contains` rejects when the terms are added from left to right. -/
theorem C105_poly_rejects :
    ∃ p : Fin 3 → ℝ, (∀ j, |p j| ≤ 2 ^ 28 ∧ Binary64 (p j)) ∧ Binary64 (5 / 2 ^ 27) ∧
      p ∈ halfspaces [((fun _ => 1 : Fin 3 → ℝ), 5 / 2 ^ 27)] ∧
      facesContainFloat fl [((fun _ => 1 : Fin 3 → ℝ), 5 / 2 ^ 27)] p (fl (1 / 10 ^ 8)) false := by
  have B1 : Binary64 (2 ^ 28) := ⟨2 ^ 28, 0, by norm_num, by norm_num, by norm_num, by norm_num⟩
  have B2 : Binary64 (5 / 2 ^ 27) := ⟨5, -27, by norm_num, by norm_num, by norm_num, by norm_num⟩
  have B3 : Binary64 (2 ^ 28 + 1 / 2 ^ 24) := ⟨2 ^ 52 + 1, -24, by norm_num, by norm_num, by norm_num, by norm_num⟩
  have B4 : Binary64 (1 / 2 ^ 24) := ⟨1, -24, by norm_num, by norm_num, by norm_num, by norm_num⟩
  have big : ∀ x : ℝ, |x| ≤ 2 ^ 30 → |x| ≤ 2 ^ (1023 : ℤ) := fun x hx => hx.trans (by
    rw [show (2 : ℝ) ^ 30 = 2 ^ (30 : ℤ) by norm_num]; exact zpow_le_zpow_right₀ (by norm_num) (by norm_num))
  have f1 : fl (1 * 2 ^ 28) = 2 ^ 28 := by rw [one_mul]; exact fl_exact hfl B1 (big _ (by norm_num))
  have f2 : fl (1 * (5 / 2 ^ 27)) = 5 / 2 ^ 27 := by rw [one_mul]; exact fl_exact hfl B2 (big _ (by norm_num))
  have f3 : fl (1 * -2 ^ 28) = -2 ^ 28 := by rw [one_mul]; exact fl_exact hfl (binary64_neg B1) (big _ (by norm_num))
  have f4 : fl (2 ^ 28 + 5 / 2 ^ 27) = 2 ^ 28 + 1 / 2 ^ 24 :=
    fl_eq_of_near hfl 28 (big _ (by norm_num)) B3 (by norm_num) (by norm_num)
  have f5 : fl (2 ^ 28 + 1 / 2 ^ 24 + -2 ^ 28) = 1 / 2 ^ 24 := by
    rw [show (2 ^ 28 + 1 / 2 ^ 24 + -2 ^ 28 : ℝ) = 1 / 2 ^ 24 by norm_num]; exact fl_exact hfl B4 (big _ (by norm_num))
  refine ⟨![2 ^ 28, 5 / 2 ^ 27, -2 ^ 28], ?_, B2, ?_, fun _ => 1 / 2 ^ 24, ?_, ?_⟩
  · intro j
    fin_cases j
    · exact ⟨by simp, B1⟩
    · exact ⟨by simp only [Fin.mk_one, Matrix.cons_val_one, Matrix.cons_val_zero]; norm_num, B2⟩
    · exact ⟨by simp, binary64_neg B1⟩
  · intro f hf
    rw [List.mem_singleton] at hf
    subst hf
    simp only [dotProduct, Fin.sum_univ_three, Matrix.cons_val]
    norm_num
  · intro f hf
    rw [List.mem_singleton] at hf
    subst hf
    have h1 : FlDot fl ([(1, 2 ^ 28)] ++ [(1, 5 / 2 ^ 27)]) (fl (fl (1 * 2 ^ 28) + fl (1 * (5 / 2 ^ 27)))) :=
      FlDot.add (by simp) (by simp) (FlDot.prod _ _) (FlDot.prod _ _)
    have h2 := FlDot.add (fl := fl) (by simp) (by simp) h1 (FlDot.prod 1 (-2 ^ 28))
    rw [f1, f2, f3, f4, f5] at h2
    simpa [List.ofFn_succ] using h2
  · simp only [Bool.false_eq_true, false_iff, not_forall]
    refine ⟨_, List.mem_singleton_self _, ?_⟩
    have h1 := (abs_le.mp (threshold_error hfl (b := 5 / 2 ^ 27) (by norm_num))).2
    rw [not_le]
    norm_num at h1 ⊢; linarith

end

/-! ## Every input has an answer -/

section
variable (fl : ℝ → ℝ)

theorem FlSum.exists (l : List ℝ) : ∃ s, FlSum fl l s := by
  induction l using List.reverseRecOn with
  | nil => exact ⟨0, .nil⟩
  | append_singleton l x ih =>
    obtain ⟨s, hs⟩ := ih
    by_cases hl : l = []
    · subst hl; exact ⟨x, .single x⟩
    · exact ⟨_, .add hl (by simp) hs (.single x)⟩

theorem FlDot.exists (l : List (ℝ × ℝ)) : ∃ s, FlDot fl l s := by
  induction l using List.reverseRecOn with
  | nil => exact ⟨0, .nil⟩
  | append_singleton l x ih =>
    obtain ⟨s, hs⟩ := ih
    by_cases hl : l = []
    · subst hl; exact ⟨_, .prod x.1 x.2⟩
    · exact ⟨_, .fma x.1 x.2 hl hs⟩

/-- C105: the relations are total: every polyhedron and point, every box and point, every ellipsoid and point have an answer. -/
theorem C105_total :
    (∀ (d : ℕ) (faces : List ((Fin d → ℝ) × ℝ)) (p : Fin d → ℝ) (tol : ℝ), ∃ answer, facesContainFloat fl faces p tol answer) ∧
      (∀ (b : Box ℝ) (p : Fin 3 → ℝ) (tol : ℝ), ∃ answer, b.containsFloat fl p tol answer) ∧
      ∀ (d : ℕ) (e : Ellipsoid ℝ d) (p : Fin d → ℝ) (tol : ℝ), ∃ answer, e.containsFloat fl p tol answer := by
  classical
  have hf : ∀ (d : ℕ) (faces : List ((Fin d → ℝ) × ℝ)) (p : Fin d → ℝ) (tol : ℝ), ∃ answer, facesContainFloat fl faces p tol answer :=
    fun d faces p tol => by
      choose s hs using fun f : (Fin d → ℝ) × ℝ => FlDot.exists fl (List.ofFn fun j => (f.1 j, p j))
      exact ⟨decide (∀ f ∈ faces, s f ≤ fl (f.2 + tol)), s, fun f _ => hs f, decide_eq_true_iff⟩
  refine ⟨hf, fun b p tol => ?_, fun d e p tol => ?_⟩
  · choose t1 h1 using fun i : Fin 3 => FlDot.exists fl (List.ofFn fun j => (b.rotation j i, b.center j))
    choose t2 h2 using fun i : Fin 3 => FlDot.exists fl (List.ofFn fun j => (-b.rotation j i, b.center j))
    obtain ⟨answer, ha⟩ := hf 3 ((List.finRange 3).flatMap fun i =>
      [((fun j => b.rotation j i), fl (b.halfExtents i + t1 i)), ((fun j => -b.rotation j i), fl (b.halfExtents i + t2 i))]) p tol
    exact ⟨answer, _, ⟨fun i k => if k then t2 i else t1 i, fun i => ⟨h1 i, h2 i⟩, rfl⟩, ha⟩
  · choose ps hps using fun i : Fin d => FlDot.exists fl (List.ofFn fun j => (fl (p j - e.center j), e.rotation j i))
    obtain ⟨q, hq⟩ := FlSum.exists fl ((Finset.univ.filter fun i => e.zFloat fl i = false).toList.map fun i =>
      fl (fl (fl (fl (1 / e.halfExtents i) * fl (1 / e.halfExtents i)) * ps i) * ps i))
    exact ⟨decide ((∀ i, e.zFloat fl i = true → |ps i| ≤ tol) ∧ q ≤ fl (1 + tol)), ps, q, hps, hq, decide_eq_true_iff⟩

end

/-- The hypotheses are met by a unit cube and its corner, and by a flat ellipsoid with different half extents. -/
example : (∀ j i, |(⟨![1, 1, 1], 1, 0⟩ : Box ℝ).rotation j i| ≤ 101 / 100) ∧
    ∀ i, |((1 : Matrix (Fin 3) (Fin 3) ℝ)ᵀ *ᵥ (![1, 1, 1] - 0)) i| ≤ (⟨![1, 1, 1], 1, 0⟩ : Box ℝ).halfExtents i := by
  constructor
  · intro j i
    by_cases h : j = i
    · subst h; simp; norm_num
    · simp [Matrix.one_apply_ne h]
      norm_num
  · intro i
    fin_cases i <;> simp

example : EllipsoidScale (⟨![1000, 1 / 100, 0], 1, ![5, 6, 7]⟩ : Ellipsoid ℝ 3) ![605, 6 + 8 / 1000, 7] where
  dim := le_rfl
  extents := by intro i; fin_cases i <;> norm_num
  rotation := by
    intro j i
    by_cases h : j = i
    · subst h; simp; norm_num
    · simp [Matrix.one_apply_ne h]
      norm_num
  zero := by
    intro i hi j
    fin_cases i <;> fin_cases j <;> simp at hi ⊢ <;> norm_num
  ratio := by
    intro i hi j
    fin_cases i <;> fin_cases j <;> simp at hi ⊢ <;> norm_num [abs_of_pos, abs_le]

end Rigeo
