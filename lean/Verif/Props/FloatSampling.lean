import Verif.Model.FloatSampling
import Verif.Props.FloatBound
import Verif.Props.Sampling

/-!
# C126: rounding in random points, vertices and grids of boxes
-/

namespace Rigeo

open Spec Matrix

local notation "u" => unitRoundoff

section
variable {fl : ℝ → ℝ} (hfl : IsRounding fl)
include hfl

/-- A rounded product of a number of at most 1. -/
theorem unit_scale_error {x y S : ℝ} (hS : 1 / 10 ^ 60 ≤ S) (hS' : S ≤ 10 ^ 60) (hx : |x| ≤ 1) (hy : |y| ≤ S) :
    |fl (x * y) - x * y| ≤ 10 * u * S := by
  have hu0 := u_pos
  have hu2 : 110 / 10 ^ 18 ≤ u := by unfold unitRoundoff; norm_num
  have hS0 : 0 < S := lt_of_lt_of_le (by norm_num) hS
  have ht : (1 : ℝ) / 10 ^ 200 ≤ u * S := by
    have : 110 / 10 ^ 18 * (1 / 10 ^ 60) ≤ u * S := mul_le_mul hu2 hS (by norm_num) hu0.le
    exact le_trans (by norm_num) this
  have h1 : |x * y| ≤ S := by
    rw [abs_mul]
    exact (mul_le_of_le_one_left (abs_nonneg _) hx).trans hy
  have h2 := fl_near hfl (h1.trans (by linarith : S ≤ 10 ^ 150))
  have h3 := mul_le_mul_of_nonneg_left h1 hu0.le
  linarith

/-- One number of `linspace`. -/
theorem linspace_entry {h S : ℝ} (hh : 0 ≤ h) (hS : 1 / 10 ^ 60 ≤ S) (hS' : S ≤ 10 ^ 60) (hhS : h ≤ S) {n k : ℕ} (hn : n ≤ 10 ^ 9)
    (hk : k < n) :
    |(if k + 1 = n ∧ 1 < n then h
      else if n ≤ 1 then fl (fl (k * fl (h - -h)) + -h)
      else if fl (fl (h - -h) / ((n : ℝ) - 1)) = 0 then fl (fl (fl ((k : ℝ) / ((n : ℝ) - 1)) * fl (h - -h)) + -h)
      else fl (fl (k * fl (fl (h - -h) / ((n : ℝ) - 1))) + -h)) -
      (-h + (k : ℝ) * ((h - -h) / ((n : ℝ) - 1)))| ≤ 10 * u * S := by
  have hu0 := u_pos
  have hu1 := u_le
  have hu2 : 110 / 10 ^ 18 ≤ u := by unfold unitRoundoff; norm_num
  have hS0 : 0 < S := lt_of_lt_of_le (by norm_num) hS
  have huS0 : 0 < u * S := by positivity
  have ht : (10 : ℝ) ^ 9 * (1 / 10 ^ 200) ≤ u * S / 100 := by
    have : 110 / 10 ^ 18 * (1 / 10 ^ 60) ≤ u * S := mul_le_mul hu2 hS (by norm_num) hu0.le
    have h3 : (10 : ℝ) ^ 9 * (1 / 10 ^ 200) ≤ 110 / 10 ^ 18 * (1 / 10 ^ 60) / 100 := by norm_num
    linarith
  have ht1 : (1 : ℝ) / 10 ^ 200 ≤ u * S / 100 := le_trans (by norm_num) ht
  have huS : u * S ≤ S / 1000 := by
    have := mul_le_mul_of_nonneg_right (show u ≤ 1 / 1000 by linarith) hS0.le
    linarith
  have near : ∀ {x c : ℝ}, 0 ≤ c → c ≤ 10 → |x| ≤ c * S → |fl x - x| ≤ c * (u * S) + u * S / 100 := by
    intro x c hc0 hc hx
    have h1 := fl_near hfl (hx.trans ((mul_le_mul hc hS' hS0.le (by norm_num)).trans (by norm_num)))
    have h2 := mul_le_mul_of_nonneg_left hx hu0.le
    linarith
  rcases Nat.lt_or_ge 1 n with h1n | h1n
  · have hN : (1 : ℝ) ≤ (n : ℝ) - 1 := by
      have : (2 : ℝ) ≤ n := by exact_mod_cast h1n
      linarith
    have hN0 : (n : ℝ) - 1 ≠ 0 := by linarith
    have hkN : (k : ℝ) ≤ (n : ℝ) - 1 := by
      have : (k : ℝ) + 1 ≤ n := by exact_mod_cast hk
      linarith
    have hk9 : (k : ℝ) ≤ 10 ^ 9 := by
      have : (n : ℝ) ≤ 10 ^ 9 := by exact_mod_cast hn
      linarith
    have hk0 : (0 : ℝ) ≤ k := Nat.cast_nonneg k
    by_cases hlast : k + 1 = n
    · rw [if_pos ⟨hlast, h1n⟩]
      have hkn : (k : ℝ) = (n : ℝ) - 1 := by
        rw [← hlast]; push_cast; ring
      rw [hkn, mul_div_cancel₀ _ hN0]
      have : h - (-h + (h - -h)) = 0 := by ring
      rw [this, abs_zero]
      positivity
    rw [if_neg (fun hc => hlast hc.1), if_neg (by omega)]
    set d := fl (h - -h) with hd
    set r : ℝ := (k : ℝ) / ((n : ℝ) - 1) with hr
    have hr0 : 0 ≤ r := by positivity
    have hr1 : r ≤ 1 := by rw [hr, div_le_one (by linarith)]; exact hkN
    have e0 : |h - -h| ≤ 2 * S := by rw [abs_of_nonneg (by linarith)]; linarith
    have ed := near (by norm_num) (by norm_num) e0
    rw [← hd] at ed
    have hdS : |d| ≤ 21 / 10 * S := by
      have := abs_sub_abs_le_abs_sub d (h - -h)
      linarith
    have erd : |r * d - r * (h - -h)| ≤ 2 * (u * S) + u * S / 100 := by
      rw [← mul_sub, abs_mul, abs_of_nonneg hr0]
      exact (mul_le_of_le_one_left (abs_nonneg _) hr1).trans ed
    have ex : -h + (k : ℝ) * ((h - -h) / ((n : ℝ) - 1)) = r * (h - -h) - h := by rw [hr]; ring
    have hrng : |r * (h - -h) - h| ≤ S := by
      rw [abs_le]
      constructor <;> nlinarith
    have hrd : |r * d| ≤ 21 / 10 * S := by
      rw [abs_mul, abs_of_nonneg hr0]
      exact (mul_le_of_le_one_left (abs_nonneg _) hr1).trans hdS
    rw [ex]
    -- the product of the index and the step, whichever way it is computed
    have fin : ∀ x : ℝ, |x - r * d| ≤ 22 / 10 * (u * S) → |fl (fl x + -h) - (r * (h - -h) - h)| ≤ 10 * u * S := by
      intro x hx
      have h2 : |x| ≤ 22 / 10 * S := by
        have := abs_sub_abs_le_abs_sub x (r * d)
        linarith
      have h3 := near (by norm_num) (by norm_num) h2
      have h4 : |fl x + -h - (r * (h - -h) - h)| ≤ 65 / 10 * (u * S) := by
        have e : fl x + -h - (r * (h - -h) - h) = (fl x - x) + (x - r * d) + (r * d - r * (h - -h)) := by ring
        rw [e]
        refine (abs_add_three _ _ _).trans ?_
        linarith
      have h5 : |fl x + -h| ≤ 11 / 10 * S := by
        have := abs_sub_abs_le_abs_sub (fl x + -h) (r * (h - -h) - h)
        linarith
      have h6 := near (by norm_num) (by norm_num) h5
      have e : fl (fl x + -h) - (r * (h - -h) - h) = (fl (fl x + -h) - (fl x + -h)) + (fl x + -h - (r * (h - -h) - h)) := by ring
      rw [e]
      refine (abs_add_le _ _).trans ?_
      linarith
    split_ifs with hz
    · apply fin
      have h2 : |r| ≤ 1 := by rw [abs_of_nonneg hr0]; exact hr1
      have h3 := fl_near hfl (h2.trans (by norm_num : (1 : ℝ) ≤ 10 ^ 150))
      have h4 : |fl r - r| ≤ 101 / 100 * u := by
        have : u * |r| ≤ u := mul_le_of_le_one_right hu0.le h2
        have h5 : (1 : ℝ) / 10 ^ 200 ≤ 110 / 10 ^ 18 / 100 := by norm_num
        linarith
      rw [← sub_mul, abs_mul]
      calc |fl r - r| * |d| ≤ (101 / 100 * u) * (21 / 10 * S) := mul_le_mul h4 hdS (abs_nonneg _) (by positivity)
        _ ≤ 22 / 10 * (u * S) := by linarith
    · apply fin
      have h2 : |d / ((n : ℝ) - 1)| ≤ 21 / 10 * S := by
        rw [abs_div, abs_of_pos (show (0 : ℝ) < (n : ℝ) - 1 by linarith)]
        exact (div_le_self (abs_nonneg _) hN).trans hdS
      have h3 := fl_near hfl (h2.trans ((mul_le_mul_of_nonneg_left hS' (by norm_num)).trans (by norm_num) : 21 / 10 * S ≤ 10 ^ 150))
      have e : (k : ℝ) * fl (d / ((n : ℝ) - 1)) - r * d = k * (fl (d / ((n : ℝ) - 1)) - d / ((n : ℝ) - 1)) := by
        rw [hr]; ring
      rw [e, abs_mul, abs_of_nonneg hk0]
      have h4 : (k : ℝ) * (u * |d / ((n : ℝ) - 1)|) ≤ u * (21 / 10 * S) := by
        have h5 : (k : ℝ) * |d / ((n : ℝ) - 1)| = |r * d| := by
          rw [hr, abs_mul, abs_div, abs_div, abs_of_nonneg hk0]; ring
        have h6 := mul_le_mul_of_nonneg_left hrd hu0.le
        rw [← h5] at h6
        linarith
      have h5 := mul_le_mul_of_nonneg_left h3 hk0
      have h6 : (k : ℝ) * (1 / 10 ^ 200) ≤ 10 ^ 9 * (1 / 10 ^ 200) := mul_le_mul_of_nonneg_right hk9 (by norm_num)
      rw [mul_add] at h5
      linarith
  · have hk0 : k = 0 := by omega
    rw [if_neg (by omega), if_pos h1n, hk0]
    simp only [Nat.cast_zero, zero_mul, add_zero]
    rw [fl_zero hfl, zero_add]
    have h2 : |-h| ≤ 1 * S := by rw [abs_neg, abs_of_nonneg hh]; linarith
    have := near (by norm_num) (by norm_num) h2
    linarith

/-- `linspace` with rounding is near the exact one. -/
theorem linspace_error {h S : ℝ} (hh : 0 ≤ h) (hS : 1 / 10 ^ 60 ≤ S) (hS' : S ≤ 10 ^ 60) (hhS : h ≤ S) {n : ℕ} (hn : n ≤ 10 ^ 9) :
    List.Forall₂ (fun x y => |x| ≤ h ∧ |y - x| ≤ 10 * u * S) (Box.linspace (-h) h n) (linspaceFloat fl (-h) h n) := by
  have hm := linspace_abs h hh n
  unfold Box.linspace at hm ⊢
  unfold linspaceFloat
  rw [List.forall₂_map_left_iff, List.forall₂_map_right_iff, List.forall₂_same]
  intro k hk
  exact ⟨hm _ (List.mem_map.mpr ⟨k, hk, rfl⟩), linspace_entry hfl hh hS hS' hhS hn (List.mem_range.mp hk)⟩

/-- Placing a point that is near a point of the box. -/
theorem place_error {b : Box ℝ} {O : Matrix (Fin 3) (Fin 3) ℝ} (hO : NearRotation b.rotation O) (hh : ∀ i, 0 ≤ b.halfExtents i)
    {S : ℝ} (hS : 1 / 10 ^ 60 ≤ S) (hS' : S ≤ 10 ^ 60) (hc : ∀ i, |b.center i| + ∑ j, b.halfExtents j ≤ S) {y v w : Fin 3 → ℝ}
    (hy : ∀ i, |y i| ≤ b.halfExtents i) (hv : ∀ i, |v i - y i| ≤ 10 * u * S) (h : b.placeFloat fl v w) (i : Fin 3) :
    |w i - rigid O b.center y i| ≤ 200 * u * S := by
  have hu0 := u_pos
  have hu1 := u_le
  have hS0 : 0 < S := lt_of_lt_of_le (by norm_num) hS
  have huS0 : 0 < u * S := by positivity
  have huS : 20 * u * S ≤ S := by
    have : 20 * u ≤ 1 := by linarith
    exact mul_le_of_le_one_left hS0.le this
  obtain ⟨x, hx1, hx2⟩ := h
  have hrig : ∀ i, |rigid O b.center y i| ≤ S := fun i => by
    have h1 := abs_mulVec_le hO.1 hy i
    exact (abs_add_le ((O *ᵥ y) i) (b.center i)).trans (by linarith [hc i])
  have hyS : ∀ i, |y i| ≤ S := fun i => by
    have h1 := Finset.single_le_sum (f := b.halfExtents) (fun j _ => hh j) (Finset.mem_univ i)
    linarith [hy i, hc i, abs_nonneg (b.center i)]
  have hd : vlen (v - y) ≤ 7 / 4 * (10 * u * S) := vlen_le hv
  have hs := step_center hfl hO hS hS' hyS hrig (by linarith) hx1 hx2
  refine (abs_le_vlen (w - rigid O b.center y) i).trans ?_
  linarith

/-- Placing a list of points. -/
theorem place_all {b : Box ℝ} {O : Matrix (Fin 3) (Fin 3) ℝ} (hO : NearRotation b.rotation O) (hh : ∀ i, 0 ≤ b.halfExtents i)
    {S : ℝ} (hS : 1 / 10 ^ 60 ≤ S) (hS' : S ≤ 10 ^ 60) (hc : ∀ i, |b.center i| + ∑ j, b.halfExtents j ≤ S)
    {ys vs ws : List (Fin 3 → ℝ)}
    (hraw : List.Forall₂ (fun y v : Fin 3 → ℝ => (∀ i, |y i| ≤ b.halfExtents i) ∧ ∀ i, |v i - y i| ≤ 10 * u * S) ys vs)
    (h : List.Forall₂ (b.placeFloat fl) vs ws) :
    List.Forall₂ (fun y w : Fin 3 → ℝ => ∀ i, |w i - (O *ᵥ y + b.center) i| ≤ 200 * u * S) ys ws := by
  induction hraw generalizing ws with
  | nil =>
    cases h
    exact .nil
  | cons hyv _ ih =>
    cases h with
    | cons hp ht => exact .cons (fun i => place_error hfl hO hh hS hS' hc hyv.1 hyv.2 hp i) (ih ht)

/-- C126: `random_points` with rounding: every coordinate of the point is off by at most `200 · 2⁻⁵³ S`. `U` is the draw. -/
theorem C126_random {b : Box ℝ} {O : Matrix (Fin 3) (Fin 3) ℝ} (hO : NearRotation b.rotation O) (hh : ∀ i, 0 ≤ b.halfExtents i)
    {S : ℝ} (hS : 1 / 10 ^ 60 ≤ S) (hS' : S ≤ 10 ^ 59) (hc : ∀ i, |b.center i| + ∑ j, b.halfExtents j ≤ S) {U p : Fin 3 → ℝ}
    (hU : ∀ i, |U i| ≤ 1) (h : b.randomPointFloat fl U p) (i : Fin 3) :
    |p i - rigid O b.center (fun j => U j * b.halfExtents j) i| ≤ 200 * (2 : ℝ) ^ (-53 : ℤ) * S := by
  have hu : (2 : ℝ) ^ (-53 : ℤ) = u := by unfold unitRoundoff; norm_num
  have hhS : ∀ i, |b.halfExtents i| ≤ S := fun i => by
    have h1 := Finset.single_le_sum (f := b.halfExtents) (fun j _ => hh j) (Finset.mem_univ i)
    rw [abs_of_nonneg (hh i)]
    linarith [hc i, abs_nonneg (b.center i)]
  rw [hu]
  have hS'' : S ≤ 10 ^ 60 := hS'.trans (by norm_num)
  refine place_error hfl hO hh hS hS'' hc (fun i => ?_) (fun i => unit_scale_error hfl hS hS'' (hU i) (hhS i)) h i
  rw [abs_mul, abs_of_nonneg (hh i)]
  exact mul_le_of_le_one_left (hh i) (hU i)

/-- C126: the vertices with rounding are off by at most `160 · 2⁻⁵³ S`. -/
theorem C126_vertices {b : Box ℝ} {O : Matrix (Fin 3) (Fin 3) ℝ} (hO : NearRotation b.rotation O) (hh : ∀ i, 0 ≤ b.halfExtents i)
    {S : ℝ} (hS : 1 / 10 ^ 60 ≤ S) (hS' : S ≤ 10 ^ 59) (hc : ∀ i, |b.center i| + ∑ j, b.halfExtents j ≤ S)
    {vs : List (Fin 3 → ℝ)} (h : b.verticesFloat fl vs) :
    List.Forall₂ (fun p w : Fin 3 → ℝ => ∀ i, |w i - p i| ≤ 160 * (2 : ℝ) ^ (-53 : ℤ) * S)
      (Box.vertices ⟨b.halfExtents, O, b.center⟩) vs := by
  have hu : (2 : ℝ) ^ (-53 : ℤ) = u := by unfold unitRoundoff; norm_num
  have hn := vertices_near hfl hO hh hS hS' hc h
  show List.Forall₂ _ ((boxVertices b.halfExtents).map fun v => O *ᵥ v + b.center) vs
  rw [List.forall₂_map_left_iff, hu]
  exact hn.imp fun v w hvw i => (hvw i).2

/-- C126: the grid with rounding has, in the same order, the points of the exact grid, each off by at most `200 · 2⁻⁵³ S`. -/
theorem C126_grid {b : Box ℝ} {O : Matrix (Fin 3) (Fin 3) ℝ} (hO : NearRotation b.rotation O) (hh : ∀ i, 0 ≤ b.halfExtents i)
    {S : ℝ} (hS : 1 / 10 ^ 60 ≤ S) (hS' : S ≤ 10 ^ 59) (hc : ∀ i, |b.center i| + ∑ j, b.halfExtents j ≤ S) {n : Fin 3 → ℕ}
    (hn : ∀ i, n i ≤ 10 ^ 9) {ws : List (Fin 3 → ℝ)} (h : b.gridFloat fl n ws) :
    List.Forall₂ (fun p w : Fin 3 → ℝ => ∀ i, |w i - p i| ≤ 200 * (2 : ℝ) ^ (-53 : ℤ) * S)
      (Box.grid ⟨b.halfExtents, O, b.center⟩ n) ws := by
  have hu : (2 : ℝ) ^ (-53 : ℤ) = u := by unfold unitRoundoff; norm_num
  have hS'' : S ≤ 10 ^ 60 := hS'.trans (by norm_num)
  have hhS : ∀ i, b.halfExtents i ≤ S := fun i => by
    have h1 := Finset.single_le_sum (f := b.halfExtents) (fun j _ => hh j) (Finset.mem_univ i)
    linarith [hc i, abs_nonneg (b.center i)]
  have hl := fun i => linspace_error hfl (hh i) hS hS'' (hhS i) (hn i)
  have hraw : List.Forall₂ (fun y v : Fin 3 → ℝ => (∀ i, |y i| ≤ b.halfExtents i) ∧ ∀ i, |v i - y i| ≤ 10 * u * S)
      ((Box.linspace (-b.halfExtents 1) (b.halfExtents 1) (n 1)).flatMap fun yj =>
        (Box.linspace (-b.halfExtents 0) (b.halfExtents 0) (n 0)).flatMap fun xi =>
          (Box.linspace (-b.halfExtents 2) (b.halfExtents 2) (n 2)).map fun zk => ![xi, yj, zk])
      ((linspaceFloat fl (-b.halfExtents 1) (b.halfExtents 1) (n 1)).flatMap fun yj =>
        (linspaceFloat fl (-b.halfExtents 0) (b.halfExtents 0) (n 0)).flatMap fun xi =>
          (linspaceFloat fl (-b.halfExtents 2) (b.halfExtents 2) (n 2)).map fun zk => ![xi, yj, zk]) := by
    refine List.rel_flatMap (hl 1) fun y y' hy => List.rel_flatMap (hl 0) fun x x' hx => ?_
    rw [List.forall₂_map_left_iff, List.forall₂_map_right_iff]
    refine (hl 2).imp fun z z' hz => ⟨fun i => ?_, fun i => ?_⟩
    · fin_cases i
      · exact hx.1
      · exact hy.1
      · exact hz.1
    · fin_cases i
      · exact hx.2
      · exact hy.2
      · exact hz.2
  rw [hu]
  unfold Box.gridFloat at h
  show List.Forall₂ _ (List.map (fun p => O *ᵥ p + b.center) _) ws
  rw [List.forall₂_map_left_iff]
  exact place_all hfl hO hh hS hS'' hc hraw h

/-- A point that is near a point of the box is accepted. -/
theorem near_accepted {b : Box ℝ} {O : Matrix (Fin 3) (Fin 3) ℝ} (hO : NearRotation b.rotation O) (hh : ∀ i, 0 ≤ b.halfExtents i)
    {S : ℝ} (hS : 1 / 10 ^ 60 ≤ S) (hS' : S ≤ 4 * 10 ^ 3) (hc : ∀ i, |b.center i| + ∑ j, b.halfExtents j ≤ S) {p q : Fin 3 → ℝ}
    (hp : p ∈ Spec.box b.halfExtents O b.center) (hq : ∀ i, |q i - p i| ≤ 200 * (2 : ℝ) ^ (-53 : ℤ) * S) {answer : Bool}
    (hans : b.containsFloat fl q (fl (1 / 10 ^ 8)) answer) : answer = true := by
  have hu : (2 : ℝ) ^ (-53 : ℤ) = u := by unfold unitRoundoff; norm_num
  have hS0 : 0 < S := lt_of_lt_of_le (by norm_num) hS
  have hsum0 : 0 ≤ ∑ j, b.halfExtents j := Finset.sum_nonneg fun j _ => hh j
  have hsum : ∑ j, b.halfExtents j ≤ S := by linarith [hc 0, abs_nonneg (b.center 0)]
  have huS := mul_le_mul u_le hS' hS0.le (by norm_num)
  have huH := mul_le_mul u_le (hsum.trans hS') hsum0 (by norm_num)
  have hsmall : 200 * (2 : ℝ) ^ (-53 : ℤ) * S ≤ 1 / 10 ^ 10 := by
    rw [hu]
    norm_num at huS ⊢
    linarith
  refine C121_contains_accepts hfl (args := []) (l := []) (b := b) (b' := b) rfl .nil hO hS ?_ (by simp) ?_ ?_ hp
    (fun i => (hq i).trans hsmall) hans
  · intro k i
    rw [List.take_nil]
    show |b.center i| ≤ S
    linarith [hc i]
  · linarith
  · rw [hu]
    norm_num at huS huH ⊢
    linarith

/-- C126: `contains` with rounding and its default tolerance accepts every random point, every vertex and every grid point of a box
in any pose, as computed with rounding. -/
theorem C126_accepts {b : Box ℝ} {O : Matrix (Fin 3) (Fin 3) ℝ} (hO : NearRotation b.rotation O) (hh : ∀ i, 0 ≤ b.halfExtents i)
    {S : ℝ} (hS : 1 / 10 ^ 60 ≤ S) (hS' : S ≤ 4 * 10 ^ 3) (hc : ∀ i, |b.center i| + ∑ j, b.halfExtents j ≤ S) {q : Fin 3 → ℝ}
    (hq : (∃ U, (∀ i, |U i| ≤ 1) ∧ b.randomPointFloat fl U q) ∨ (∃ vs, b.verticesFloat fl vs ∧ q ∈ vs) ∨
      ∃ n ws, (∀ i, n i ≤ 10 ^ 9) ∧ b.gridFloat fl n ws ∧ q ∈ ws) {answer : Bool}
    (hans : b.containsFloat fl q (fl (1 / 10 ^ 8)) answer) : answer = true := by
  have hS'' : S ≤ 10 ^ 59 := hS'.trans (by norm_num)
  have hS0 : 0 < S := lt_of_lt_of_le (by norm_num) hS
  have pick : ∀ {l ws : List (Fin 3 → ℝ)} {ε : ℝ}, List.Forall₂ (fun p w : Fin 3 → ℝ => ∀ i, |w i - p i| ≤ ε) l ws → q ∈ ws →
      ∃ p ∈ l, ∀ i, |q i - p i| ≤ ε := by
    intro l ws ε hf hm
    obtain ⟨k, hk, rfl⟩ := List.mem_iff_getElem.mp hm
    exact ⟨_, List.getElem_mem (hf.length_eq ▸ hk), hf.get (hf.length_eq ▸ hk) hk⟩
  rcases hq with ⟨U, hU, hr⟩ | ⟨vs, hvs, hm⟩ | ⟨n, ws, hn, hg, hm⟩
  · refine near_accepted hfl hO hh hS hS' hc ⟨_, fun i => ?_, rfl⟩ (C126_random hfl hO hh hS hS'' hc hU hr) hans
    rw [abs_mul, abs_of_nonneg (hh i)]
    exact mul_le_of_le_one_left (hh i) (hU i)
  · obtain ⟨p, hp, hqp⟩ := pick (C126_vertices hfl hO hh hS hS'' hc hvs) hm
    have hin : p ∈ Spec.box b.halfExtents O b.center := by
      have := C25_vertices (⟨b.halfExtents, O, b.center⟩ : Box ℝ) hh
      rw [← this]
      exact subset_convexHull ℝ _ hp
    refine near_accepted hfl hO hh hS hS' hc hin (fun i => (hqp i).trans ?_) hans
    have : (0 : ℝ) < 2 ^ (-53 : ℤ) * S := by positivity
    linarith
  · obtain ⟨p, hp, hqp⟩ := pick (C126_grid hfl hO hh hS hS'' hc hn hg) hm
    exact near_accepted hfl hO hh hS hS' hc (C40_inside (⟨b.halfExtents, O, b.center⟩ : Box ℝ) hh n p hp) hqp hans

omit hfl in
/-- C126: there are such results, whatever the rounding. -/
theorem C126_result (b : Box ℝ) (U : Fin 3 → ℝ) (n : Fin 3 → ℕ) :
    (∃ p, b.randomPointFloat fl U p) ∧ ∃ ws, b.gridFloat fl n ws := by
  have one : ∀ v, ∃ w, b.placeFloat fl v w := by
    intro v
    choose x hx using fun i => FlDot.exists (fl := fl) (List.ofFn fun j => (b.rotation i j, v j))
    exact ⟨fun i => fl (x i + b.center i), x, hx, fun _ => rfl⟩
  have key : ∀ l : List (Fin 3 → ℝ), ∃ ws, List.Forall₂ (b.placeFloat fl) l ws := by
    intro l
    induction l with
    | nil => exact ⟨[], .nil⟩
    | cons v l ih =>
      obtain ⟨ws, hws⟩ := ih
      obtain ⟨w, hw⟩ := one v
      exact ⟨w :: ws, .cons hw hws⟩
  exact ⟨one _, key _⟩

end

/-! ### The hypotheses can be met -/

/-- A box that is not aligned with the axes and whose stored rotation is not exactly orthogonal, a draw and the numbers of points. -/
example : ∃ (b : Box ℝ) (O : Matrix (Fin 3) (Fin 3) ℝ) (U : Fin 3 → ℝ) (n : Fin 3 → ℕ), NearRotation b.rotation O ∧
    ¬ Orthogonal b.rotation ∧ (∀ i, 0 < b.halfExtents i) ∧ (∀ i, |b.center i| + ∑ j, b.halfExtents j ≤ 7) ∧ (∀ i, |U i| ≤ 1) ∧
    (∀ i, n i ≤ 10 ^ 9) ∧ n 0 ≠ n 1 := by
  let Q : Matrix (Fin 3) (Fin 3) ℝ := !![0, -1, 0; 1, 0, 0; 0, 0, 1]
  let R : Matrix (Fin 3) (Fin 3) ℝ := !![(2 : ℝ) ^ (-53 : ℤ), -1, 0; 1, 0, 0; 0, 0, 1]
  have hQ : Orthogonal Q := by
    unfold Orthogonal
    ext i j
    rw [Matrix.mul_apply, Fin.sum_univ_three]
    fin_cases i <;> fin_cases j <;> simp [Q]
  have hR : NearRotation R Q := by
    refine ⟨hQ, fun i j => ?_⟩
    fin_cases i <;> fin_cases j <;> simp [R, Q] <;> norm_num
  have hRn : ¬ Orthogonal R := by
    intro h
    have := congrFun (congrFun h 0) 0
    rw [Matrix.mul_apply, Fin.sum_univ_three] at this
    simp [R] at this
  refine ⟨⟨![1, 2, 3], R, ![0, 0, 1]⟩, Q, ![1, -1 / 2, 0], ![2, 3, 4], hR, hRn, ?_, ?_, ?_, ?_, by decide⟩
  · intro i
    fin_cases i <;> norm_num
  · intro i
    have e : ∑ j, (![1, 2, 3] : Fin 3 → ℝ) j = 6 := by
      rw [Fin.sum_univ_three]
      show (1 : ℝ) + 2 + 3 = 6
      norm_num
    show |(![0, 0, 1] : Fin 3 → ℝ) i| + ∑ j, (![1, 2, 3] : Fin 3 → ℝ) j ≤ 7
    rw [e]
    fin_cases i <;> norm_num
  · intro i
    fin_cases i <;> norm_num [abs_le]
  · intro i
    fin_cases i <;> norm_num

end Rigeo
