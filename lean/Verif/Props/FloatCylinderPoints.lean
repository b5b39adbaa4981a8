import Verif.Model.FloatCylinderPoints
import Verif.Props.FloatCylinder
import Verif.Props.FloatEllipsoidPoints

/-!
# C128: rounding in random points of cylinders
-/

namespace Rigeo

open Spec Matrix

local notation "u" => unitRoundoff

section
variable {fl : ℝ → ℝ} (hfl : IsRounding fl)
include hfl

/-- C128: `random_points` of a cylinder with rounding: every coordinate is within `200 · 2⁻⁵³ S` of the exact image of the draws.
`O` is the rotation or reflection that the stored matrix stands for. -/
theorem C128_point {c : Cylinder ℝ} {O : Matrix (Fin 3) (Fin 3) ℝ} (hO : NearRotation c.rotation O) (hr : 0 ≤ c.radius)
    (hl : 0 ≤ c.length) {S : ℝ} (hS : 1 / 10 ^ 60 ≤ S) (hS' : S ≤ 10 ^ 60)
    (hc : ∀ i, |c.center i| + 3 * c.radius + c.length ≤ S) {U : ℝ} {X : Fin 2 → ℝ} {p : Fin 3 → ℝ} (hU : |U| ≤ 1 / 2)
    (hX : ∑ i, X i ^ 2 ≤ 1 + 50 * (2 : ℝ) ^ (-53 : ℤ)) (h : c.mapDiskFloat fl U X p) (i : Fin 3) :
    |p i - rigid O c.center ![c.radius * X 0, c.radius * X 1, c.length * U] i| ≤ 200 * (2 : ℝ) ^ (-53 : ℤ) * S := by
  have hu : (2 : ℝ) ^ (-53 : ℤ) = u := by unfold unitRoundoff; norm_num
  rw [hu] at hX ⊢
  have hu0 := u_pos
  have hu1 := u_le
  have hS0 : 0 < S := lt_of_lt_of_le (by norm_num) hS
  have huS : 20 * u * S ≤ S := by
    have : 20 * u ≤ 1 := by norm_num at hu1 ⊢; linarith
    exact mul_le_of_le_one_left hS0.le this
  have hXi : ∀ i, |X i| ≤ 101 / 100 := fun i => by
    have h1 := Finset.single_le_sum (f := fun i => X i ^ 2) (fun j _ => sq_nonneg _) (Finset.mem_univ i)
    refine abs_le_of_sq_le_sq ?_ (by norm_num)
    norm_num at hu1 ⊢
    linarith
  have hcS : 3 * c.radius + c.length ≤ S := by linarith [hc 0, abs_nonneg (c.center 0)]
  have near : ∀ {x : ℝ}, |x| ≤ S → |fl x - x| ≤ 10 * u * S := fun {x} hx => by
    simpa using unit_scale_error hfl hS hS' (x := 1) (y := x) (by simp) hx
  set y : Fin 3 → ℝ := ![c.radius * X 0, c.radius * X 1, c.length * U] with hy
  set P : Fin 3 → ℝ := ![fl (c.radius * X 0), fl (c.radius * X 1), fl (c.length * U)] with hP
  have a0 : ∀ i, |c.radius * X i| ≤ 101 / 100 * c.radius := fun i => by
    rw [abs_mul, abs_of_nonneg hr, mul_comm]
    exact mul_le_mul_of_nonneg_right (hXi i) hr
  have a2 : |c.length * U| ≤ c.length / 2 := by
    rw [abs_mul, abs_of_nonneg hl]
    have := mul_le_mul_of_nonneg_left hU hl
    linarith
  have hyv : ∀ j, |y j| ≤ (![101 / 100 * c.radius, 101 / 100 * c.radius, c.length / 2] : Fin 3 → ℝ) j := by
    intro j
    fin_cases j
    · exact a0 0
    · exact a0 1
    · exact a2
  have hsum : ∑ j, (![101 / 100 * c.radius, 101 / 100 * c.radius, c.length / 2] : Fin 3 → ℝ) j ≤ 3 * c.radius + c.length := by
    rw [Fin.sum_univ_three]
    show 101 / 100 * c.radius + 101 / 100 * c.radius + c.length / 2 ≤ _
    linarith
  have hyS : ∀ j, |y j| ≤ S := by
    intro j
    fin_cases j
    · exact (a0 0).trans (by linarith)
    · exact (a0 1).trans (by linarith)
    · exact a2.trans (by linarith)
  have hPy : ∀ j, |(P - y) j| ≤ 10 * u * S := by
    intro j
    fin_cases j
    · exact near ((a0 0).trans (by linarith))
    · exact near ((a0 1).trans (by linarith))
    · exact near (a2.trans (by linarith))
  have hrig : ∀ i, |rigid O c.center y i| ≤ S := fun i => by
    have h1 := abs_mulVec_le hO.1 hyv i
    exact (abs_add_le ((O *ᵥ y) i) (c.center i)).trans (by linarith [hc i])
  have hd : vlen (P - y) ≤ 7 / 4 * (10 * u * S) := vlen_le hPy
  obtain ⟨v, hv, hp⟩ := h
  have hv' : ∀ i, FlDot fl (List.ofFn fun j => (c.rotation i j, P j)) (v i) := fun i => by
    have := (hv i).swap
    rwa [List.map_ofFn] at this
  have hs := step_center hfl hO hS hS' hyS hrig (by linarith) hv' hp
  refine (abs_le_vlen (p - rigid O c.center y) i).trans ?_
  have : 0 < u * S := by positivity
  linarith

/-- C128: and `contains` with rounding accepts it, for all draws, if half length and radius are each zero or at least a thousandth
of `S`. -/
theorem C128_accepts {c : Cylinder ℝ} {O : Matrix (Fin 3) (Fin 3) ℝ} (hO : NearRotation c.rotation O) {S : ℝ}
    (hS : 1 / 10 ^ 60 ≤ S) (hS' : S ≤ 10 ^ 60)
    (hlen : (c.length / 2 = 0 ∧ S ≤ 1000) ∨ (12 / 10 ^ 8 ≤ c.length / 2 ∧ c.length / 2 ≤ 9 * 10 ^ 9 ∧ S ≤ 1000 * (c.length / 2)))
    (hrad : (c.radius = 0 ∧ S ≤ 1000) ∨ (12 / 10 ^ 8 ≤ c.radius ∧ c.radius ≤ 9 * 10 ^ 9 ∧ S ≤ 1000 * c.radius))
    (hc : ∀ i, |c.center i| + 3 * c.radius + c.length ≤ S) {pow : ℝ → ℝ → ℝ} {U : ℝ} {N : Fin 2 → ℝ} {a : ℝ} {p : Fin 3 → ℝ}
    (hU : |U| ≤ 1 / 2) (hlo : 1 / 10 ^ 20 ≤ ∑ i, N i ^ 2) (hhi : ∑ i, N i ^ 2 ≤ 10 ^ 60) (ha0 : 0 ≤ a) (ha1 : a ≤ 1)
    (hpow : ∀ x y, 0 ≤ x → x ≤ 1 → 0 ≤ y → y ≤ 1 → |pow x y - x ^ y| ≤ 2 * 2 ^ (-53 : ℤ) * x ^ y)
    (h : c.randomPointFloat fl pow U N a p) {answer : Bool} (hans : c.containsFloat fl p answer) : answer = true := by
  have hu : (2 : ℝ) ^ (-53 : ℤ) = u := by unfold unitRoundoff; norm_num
  have hu0 := u_pos
  have hu1 := u_le
  have hS0 : 0 < S := lt_of_lt_of_le (by norm_num) hS
  obtain ⟨X, hball, hmap⟩ := h
  have hX : ∑ i, X i ^ 2 ≤ 1 + 50 * u := by
    have := C115_ball hfl hball (by norm_num) hlo hhi ha0 ha1 hpow
    rw [hu] at this
    push_cast at this
    linarith
  have hXi : ∀ i, |X i| ≤ 101 / 100 := fun i => by
    have h1 := Finset.single_le_sum (f := fun i => X i ^ 2) (fun j _ => sq_nonneg _) (Finset.mem_univ i)
    refine abs_le_of_sq_le_sq ?_ (by norm_num)
    norm_num at hu1 ⊢
    linarith
  -- the sizes
  have size : ∀ {x : ℝ}, ((x = 0 ∧ S ≤ 1000) ∨ (12 / 10 ^ 8 ≤ x ∧ x ≤ 9 * 10 ^ 9 ∧ S ≤ 1000 * x)) →
      0 ≤ x ∧ x ≤ unit x ∧ S ≤ 1000 * unit x ∧ 12 / 10 ^ 8 ≤ unit x ∧ unit x ≤ 9 * 10 ^ 9 := by
    intro x hx
    rcases hx with ⟨h0, h1⟩ | ⟨h0, h1, h2⟩
    · rw [unit, if_pos h0, h0]
      exact ⟨le_refl _, by norm_num, by linarith, by norm_num, by norm_num⟩
    · have hpos : 0 < x := lt_of_lt_of_le (by norm_num) h0
      rw [unit, if_neg hpos.ne']
      exact ⟨hpos.le, le_refl _, h2, h0, h1⟩
  obtain ⟨l1, l2, l3, l4, l5⟩ := size hlen
  obtain ⟨r1, r2, r3, r4, r5⟩ := size hrad
  have hl : 0 ≤ c.length := by linarith
  have key := C128_point hfl hO r1 hl hS hS' hc hU (by rw [hu]; exact hX) hmap
  rw [hu] at key
  set y : Fin 3 → ℝ := ![c.radius * X 0, c.radius * X 1, c.length * U] with hy
  set w : Fin 3 → ℝ := O *ᵥ y with hw
  have hp1 : ∀ j, |(p - c.center) j - w j| ≤ 200 * u * S := fun j => by
    have e1 : (p - c.center) j - w j = p j - rigid O c.center y j := by
      simp only [Pi.sub_apply, rigid, Pi.add_apply, hw]; ring
    rw [e1]
    exact key j
  have a0 : ∀ i, |c.radius * X i| ≤ 101 / 100 * c.radius := fun i => by
    rw [abs_mul, abs_of_nonneg r1, mul_comm]
    exact mul_le_mul_of_nonneg_right (hXi i) r1
  have a2 : |c.length * U| ≤ c.length / 2 := by
    rw [abs_mul, abs_of_nonneg hl]
    have := mul_le_mul_of_nonneg_left hU hl
    linarith
  have hwj : ∀ j, |w j| ≤ S := fun j => by
    have h1 := abs_mulVec_le hO.1 (h := ![101 / 100 * c.radius, 101 / 100 * c.radius, c.length / 2]) (v := y) (fun i => by
      fin_cases i
      · exact a0 0
      · exact a0 1
      · exact a2) j
    rw [Fin.sum_univ_three] at h1
    have h2 : |w j| ≤ 101 / 100 * c.radius + 101 / 100 * c.radius + c.length / 2 := h1
    linarith [hc 0, abs_nonneg (c.center 0)]
  have hwO : Oᵀ *ᵥ w = y := by
    rw [hw, Matrix.mulVec_mulVec, show Oᵀ * O = 1 from hO.1, Matrix.one_mulVec]
  have hRO : ∀ i j, |c.rotation i j - O i j| ≤ 8 * u := fun i j => by rw [← hu]; exact hO.2 i j
  have hR : ∀ j i, |c.rotation j i| ≤ 101 / 100 := fun j i => by
    have h1 := abs_sub_abs_le_abs_sub (c.rotation j i) (O j i)
    have h2 := orthogonal_entry hO.1 j i
    have h3 := hRO j i
    norm_num at hu1 ⊢
    linarith
  -- the coordinates along the axes
  have hyi : ∀ i, |(fun j => c.rotation j i) ⬝ᵥ (p - c.center) - y i| ≤ 640 * (u * S) := by
    intro i
    have e1 : (fun j => c.rotation j i) ⬝ᵥ (p - c.center) - y i =
        ∑ j, (c.rotation j i * ((p - c.center) j - w j) + (c.rotation j i - O j i) * w j) := by
      have h1 : y i = ∑ j, O j i * w j := (congrFun hwO i).symm
      rw [h1]
      show ∑ j, c.rotation j i * (p - c.center) j - _ = _
      rw [← Finset.sum_sub_distrib]
      exact Finset.sum_congr rfl fun j _ => by ring
    rw [e1]
    refine (Finset.abs_sum_le_sum_abs _ _).trans ?_
    have h2 : ∀ j ∈ Finset.univ, |c.rotation j i * ((p - c.center) j - w j) + (c.rotation j i - O j i) * w j| ≤
        101 / 100 * (200 * u * S) + 8 * u * S := fun j _ => by
      refine (abs_add_le _ _).trans ?_
      rw [abs_mul, abs_mul]
      exact add_le_add (mul_le_mul (hR j i) (hp1 j) (abs_nonneg _) (by norm_num))
        (mul_le_mul (hRO j i) (hwj j) (abs_nonneg _) (by positivity))
    refine (Finset.sum_le_card_nsmul _ _ _ h2).trans ?_
    rw [Finset.card_univ, Fintype.card_fin, nsmul_eq_mul]
    push_cast
    have : 0 < u * S := by positivity
    linarith
  have hcj : ∀ j, |c.center j| ≤ S := fun j => by linarith [hc j]
  have hpj : ∀ j, |p j| ≤ 4 * S := fun j => by
    have h1 := abs_sub_abs_le_abs_sub ((p - c.center) j) (w j)
    have h2 : 200 * u * S ≤ S := by
      have : 200 * u ≤ 1 := by norm_num at hu1 ⊢; linarith
      exact mul_le_of_le_one_left hS0.le this
    have h3 := hp1 j
    have h4 := hwj j
    have h5 : (p - c.center) j = p j - c.center j := rfl
    rw [h5] at h1 h3
    have h6 := abs_sub_abs_le_abs_sub (p j) (c.center j)
    linarith [hcj j]
  -- one coordinate of one of the two tests
  have coord : ∀ {H s t : ℝ} (i : Fin 3), S ≤ 1000 * H → 12 / 10 ^ 8 ≤ H → H ≤ 9 * 10 ^ 9 → |y i| ≤ 101 / 100 * H →
      FlDot fl (List.ofFn fun j => (c.rotation j i, c.center j)) s → FlDot fl (List.ofFn fun j => (p j, c.rotation j i)) t →
      |t - s - (1 - 50 * u) * y i| ≤ 2 / 10 ^ 10 * H ∧ |t - s| ≤ 25 * 10 ^ 4 * H := by
    intro H s t i hSH hH0 hH1 hyH hs ht
    have hpos : 0 < H := lt_of_lt_of_le (by norm_num) hH0
    have h1 := project_close hfl (H := H / 4) ⟨by norm_num at hH0 ⊢; linarith, by norm_num at hH1 ⊢; linarith⟩ (fun j => hR j i)
      (fun j => ⟨(hpj j).trans (by linarith), (hcj j).trans (by linarith)⟩) hs ht
    refine ⟨?_, h1.2.trans (by linarith)⟩
    have e1 : t - s - (1 - 50 * u) * y i = (t - s - (fun j => c.rotation j i) ⬝ᵥ (p - c.center)) +
        ((fun j => c.rotation j i) ⬝ᵥ (p - c.center) - y i) + 50 * u * y i := by ring
    rw [e1]
    refine (abs_add_three _ _ _).trans ?_
    have h2 : |50 * u * y i| ≤ 50 * u * (101 / 100 * H) := by
      rw [abs_mul, abs_of_pos (by positivity : 0 < 50 * u)]
      exact mul_le_mul_of_nonneg_left hyH (by positivity)
    have h3 := hyi i
    have h4 := mul_le_mul hu1 hSH hS0.le (by norm_num)
    have h5 := mul_le_mul_of_nonneg_right hu1 hpos.le
    refine (add_le_add (add_le_add h1.1 h3) h2).trans ?_
    norm_num at h4 h5 ⊢
    linarith
  obtain ⟨c1, p1, c2, p2, a1, a2', hc1, hp1', hc2, hp2, h1, h2, hans⟩ := hans
  have htol : (1 / 100000000 : ℝ) = 1 / 10 ^ 8 := by norm_num
  rw [htol] at h1 h2
  have hy2 : y 2 = c.length * U := rfl
  have hy01 : ∀ i : Fin 2, y (Fin.castLE (by decide) i) = c.radius * X i := fun i => by fin_cases i <;> rfl
  have k1 := fun i : Fin 1 => coord 2 l3 l4 l5 (by rw [hy2]; linarith) (hc1 i) (hp1' i)
  have k2 := fun i : Fin 2 => coord (Fin.castLE (by decide) i) r3 r4 r5 (by rw [hy01]; exact (a0 i).trans (by linarith)) (hc2 i) (hp2 i)
  have t1 : (0 : ℝ) ≤ 1 - 50 * u := by norm_num at hu1 ⊢; linarith
  have s1 := slice_test hfl (d := 1) (by norm_num) (h := fun _ => c.length / 2) (h' := fun _ => fl (c.length / 2)) (s := c1) (t := p1)
    (y := fun _ => (1 - 50 * u) * y 2)
    (fun i => by
      rcases hlen with h0 | h0
      · exact .inl ⟨h0.1, by rw [h0.1]; exact fl_zero hfl⟩
      · rcases extent_close hfl (h := c.length / 2) (.inr ⟨le_trans (by norm_num) h0.1, h0.2.1.trans (by norm_num)⟩) with g | g
        · exact .inl g
        · exact .inr ⟨g.1, h0.2.1, g.2.2⟩)
    (fun i => (k1 i).1) (fun i j => (k1 j).2)
  have s2 := slice_test hfl (d := 2) (by norm_num) (h := fun _ => c.radius) (h' := fun _ => c.radius) (s := c2) (t := p2)
    (y := fun i => (1 - 50 * u) * y (Fin.castLE (by decide) i))
    (fun i => by
      rcases hrad with h0 | h0
      · exact .inl ⟨h0.1, h0.1⟩
      · refine .inr ⟨le_trans (by norm_num) h0.1, h0.2.1, ?_⟩
        rw [sub_self, abs_zero]
        positivity)
    (fun i => (k2 i).1) (fun i j => (k2 j).2)
  have b1 : a1 = true := by
    by_contra hne
    rw [Bool.not_eq_true] at hne; subst hne
    refine s1.1 (fun _ h0 => ?_) ?_ h1
    · have h0' : c.length / 2 = 0 := h0
      have : c.length = 0 := by linarith
      show (1 - 50 * u) * (c.length * U) = 0
      rw [this]; ring
    · rw [Fin.sum_univ_one]
      show ((1 - 50 * u) * (c.length * U) / (c.length / 2)) ^ 2 ≤ 1
      rw [sq_le_one_iff_abs_le_one, abs_div, abs_mul, abs_of_nonneg t1, abs_of_nonneg l1]
      refine div_le_one_of_le₀ ?_ l1
      exact (mul_le_of_le_one_left (abs_nonneg _) (by linarith)).trans a2
  have b2 : a2' = true := by
    by_contra hne
    rw [Bool.not_eq_true] at hne; subst hne
    refine s2.1 (fun i h0 => ?_) ?_ h2
    · have h0' : c.radius = 0 := h0
      show (1 - 50 * u) * y (Fin.castLE (by decide) i) = 0
      rw [hy01, h0']; ring
    · have hterm : ∀ i ∈ Finset.univ, ((1 - 50 * u) * y (Fin.castLE (by decide) i) / c.radius) ^ 2 ≤ (1 - 50 * u) ^ 2 * X i ^ 2 := by
        intro i _
        rw [hy01]
        by_cases h0 : c.radius = 0
        · rw [h0, div_zero, zero_pow (by norm_num)]
          exact mul_nonneg (sq_nonneg _) (sq_nonneg _)
        · have e1 : (1 - 50 * u) * (c.radius * X i) / c.radius = (1 - 50 * u) * X i := by field_simp
          rw [e1, mul_pow]
      refine (Finset.sum_le_sum hterm).trans ?_
      rw [← Finset.mul_sum]
      have g1 := mul_le_mul_of_nonneg_left hX (sq_nonneg (1 - 50 * u))
      refine g1.trans ?_
      have e1 : (1 - 50 * u) ^ 2 * (1 + 50 * u) = (1 - 50 * u) * (1 - 2500 * u ^ 2) := by ring
      rw [e1]
      have hsq : u ^ 2 ≤ u * 1 := by
        rw [sq]
        exact mul_le_mul_of_nonneg_left (by norm_num at hu1 ⊢; linarith) hu0.le
      refine mul_le_one₀ (by linarith) ?_ (by linarith [sq_nonneg u])
      norm_num at hu1 ⊢
      linarith
  rw [hans, b1, b2]; rfl

omit hfl in
/-- C128: there is such a point, whatever the rounding. -/
theorem C128_result (pow : ℝ → ℝ → ℝ) (c : Cylinder ℝ) (U : ℝ) (N : Fin 2 → ℝ) (a : ℝ) : ∃ p, c.randomPointFloat fl pow U N a p := by
  obtain ⟨X, hX⟩ := (C115_result (fl := fl) pow N N a).2.2
  choose v hv using fun i => FlDot.exists (fl := fl)
    (List.ofFn fun j => ((![fl (c.radius * X 0), fl (c.radius * X 1), fl (c.length * U)] : Fin 3 → ℝ) j, c.rotation i j))
  exact ⟨fun i => fl (v i + c.center i), X, hX, v, hv, fun _ => rfl⟩

end

/-! ### The hypotheses can be met -/

/-- A cylinder on its side, away from the origin, and draws. -/
example : ∃ (c : Cylinder ℝ) (O : Matrix (Fin 3) (Fin 3) ℝ) (N : Fin 2 → ℝ), NearRotation c.rotation O ∧ O ≠ 1 ∧
    (12 / 10 ^ 8 ≤ c.length / 2 ∧ c.length / 2 ≤ 9 * 10 ^ 9 ∧ 9 ≤ 1000 * (c.length / 2)) ∧
    (12 / 10 ^ 8 ≤ c.radius ∧ c.radius ≤ 9 * 10 ^ 9 ∧ 9 ≤ 1000 * c.radius) ∧
    (∀ i, |c.center i| + 3 * c.radius + c.length ≤ 9) ∧ 1 / 10 ^ 20 ≤ ∑ i, N i ^ 2 ∧ ∑ i, N i ^ 2 ≤ 10 ^ 60 := by
  let Q : Matrix (Fin 3) (Fin 3) ℝ := !![1, 0, 0; 0, 0, -1; 0, 1, 0]
  have hQ : Orthogonal Q := by
    unfold Orthogonal
    ext i j
    rw [Matrix.mul_apply, Fin.sum_univ_three]
    fin_cases i <;> fin_cases j <;> simp [Q]
  let c : Cylinder ℝ := { length := 2, radius := 1, rotation := Q, center := ![0, 0, 4] }
  refine ⟨c, Q, ![1, -2], ⟨hQ, fun i j => by simp [c]⟩, ?_, ?_, ?_, ?_, ?_, ?_⟩
  · intro h
    have := congrFun (congrFun h 1) 1
    simp [Q] at this
  · show (12 : ℝ) / 10 ^ 8 ≤ 2 / 2 ∧ (2 : ℝ) / 2 ≤ 9 * 10 ^ 9 ∧ (9 : ℝ) ≤ 1000 * (2 / 2)
    norm_num
  · show (12 : ℝ) / 10 ^ 8 ≤ 1 ∧ (1 : ℝ) ≤ 9 * 10 ^ 9 ∧ (9 : ℝ) ≤ 1000 * 1
    norm_num
  · intro i
    show |(![0, 0, 4] : Fin 3 → ℝ) i| + 3 * 1 + 2 ≤ 9
    fin_cases i <;> norm_num
  all_goals
    rw [Fin.sum_univ_two]
    simp only [Matrix.cons_val]
    norm_num

end Rigeo
