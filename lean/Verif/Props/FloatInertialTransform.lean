import Verif.Model.FloatInertialTransform
import Verif.Props.FloatTransform
import Verif.Props.FloatPointMasses

/-!
# C123: rounding in repeated transforms of inertial parameters
-/

namespace Rigeo

open Spec Matrix

local notation "u" => unitRoundoff

/-! ### Sizes of matrices -/

/-- The root of the sum of the squares of the entries -/
noncomputable def fro (A : Matrix (Fin 3) (Fin 3) ℝ) : ℝ := vlen fun i => vlen (A i)

theorem fro_nonneg (A : Matrix (Fin 3) (Fin 3) ℝ) : 0 ≤ fro A := vlen_nonneg _

theorem fro_sq (A : Matrix (Fin 3) (Fin 3) ℝ) : fro A ^ 2 = ∑ i, ∑ j, A i j ^ 2 := by
  unfold fro
  rw [vlen_sq, dotProduct]
  refine Finset.sum_congr rfl fun i _ => ?_
  rw [← pow_two, vlen_sq, dotProduct]
  exact Finset.sum_congr rfl fun j _ => (pow_two _).symm

theorem vlen_mono {x y : Fin 3 → ℝ} (h : ∀ i, |x i| ≤ y i) : vlen x ≤ vlen y := by
  refine le_of_sq_le_sq ?_ (vlen_nonneg y)
  rw [vlen_sq, vlen_sq, dotProduct, dotProduct]
  refine Finset.sum_le_sum fun i _ => ?_
  rw [← abs_mul_abs_self]
  exact mul_le_mul (h i) (h i) (abs_nonneg _) ((abs_nonneg _).trans (h i))

theorem fro_add (A B : Matrix (Fin 3) (Fin 3) ℝ) : fro (A + B) ≤ fro A + fro B := by
  unfold fro
  refine le_trans (vlen_mono (y := (fun i => vlen (A i)) + fun i => vlen (B i)) fun i => ?_) (vlen_add _ _)
  rw [abs_of_nonneg (vlen_nonneg _)]
  exact vlen_add (A i) (B i)

theorem fro_transpose (A : Matrix (Fin 3) (Fin 3) ℝ) : fro Aᵀ = fro A := by
  have h : fro Aᵀ ^ 2 = fro A ^ 2 := by
    rw [fro_sq, fro_sq, Finset.sum_comm]
    rfl
  exact (pow_left_inj₀ (fro_nonneg _) (fro_nonneg _) two_ne_zero).1 h

theorem row_le_fro (A : Matrix (Fin 3) (Fin 3) ℝ) (i : Fin 3) : vlen (A i) ≤ fro A := by
  have h := abs_le_vlen (fun i => vlen (A i)) i
  rwa [abs_of_nonneg (vlen_nonneg _)] at h

theorem entry_le_fro (A : Matrix (Fin 3) (Fin 3) ℝ) (i j : Fin 3) : |A i j| ≤ fro A := (abs_le_vlen (A i) j).trans (row_le_fro A i)

theorem fro_le {A : Matrix (Fin 3) (Fin 3) ℝ} {a : ℝ} (h : ∀ i j, |A i j| ≤ a) : fro A ≤ 3 * a := by
  have ha : 0 ≤ a := (abs_nonneg _).trans (h 0 0)
  refine le_of_sq_le_sq ?_ (by positivity)
  rw [fro_sq]
  have h1 : ∀ i j, A i j ^ 2 ≤ a ^ 2 := fun i j => by
    rw [← sq_abs]
    exact pow_le_pow_left₀ (abs_nonneg _) (h i j) 2
  calc ∑ i, ∑ j, A i j ^ 2 ≤ ∑ _i : Fin 3, ∑ _j : Fin 3, a ^ 2 := Finset.sum_le_sum fun i _ => Finset.sum_le_sum fun j _ => h1 i j
    _ = (3 * a) ^ 2 := by simp only [Fin.sum_univ_three]; ring

/-- Row by row -/
theorem fro_rows {A B : Matrix (Fin 3) (Fin 3) ℝ} {e : ℝ} (he : 0 ≤ e) (h : ∀ i, vlen (A i) ≤ vlen (B i) + e) :
    fro A ≤ fro B + 7 / 4 * e := by
  unfold fro
  refine (vlen_mono (y := (fun i => vlen (B i)) + fun _ => e) fun i => ?_).trans ((vlen_add _ _).trans ?_)
  · rw [abs_of_nonneg (vlen_nonneg _)]
    exact h i
  · exact add_le_add le_rfl (vlen_le fun i => (abs_of_nonneg he).le)

theorem fro_mul_transpose {O : Matrix (Fin 3) (Fin 3) ℝ} (hO : Orthogonal O) (A : Matrix (Fin 3) (Fin 3) ℝ) : fro (A * Oᵀ) = fro A := by
  unfold fro
  congr 1
  funext i
  have h : (A * Oᵀ) i = O *ᵥ (A i) := by
    funext j
    simp only [Matrix.mul_apply, mulVec, dotProduct, transpose_apply, mul_comm]
  rw [h, vlen_orthogonal hO]

theorem fro_mul {O : Matrix (Fin 3) (Fin 3) ℝ} (hO : Orthogonal O) (A : Matrix (Fin 3) (Fin 3) ℝ) : fro (O * A) = fro A := by
  rw [← fro_transpose, transpose_mul, fro_mul_transpose hO, fro_transpose]

/-! ### One step -/

section
variable {fl : ℝ → ℝ}

theorem FlDot.swap {l : List (ℝ × ℝ)} {s : ℝ} (h : FlDot fl l s) : FlDot fl (l.map Prod.swap) s := by
  induction h with
  | nil => exact .nil
  | prod x y => rw [mul_comm]; exact .prod y x
  | add h1 h2 _ _ ih1 ih2 =>
    rw [List.map_append]
    exact .add (by simpa using h1) (by simpa using h2) ih1 ih2
  | fma x y h1 _ ih =>
    rw [List.map_append, mul_comm x y]
    exact .fma y x (by simpa using h1) ih
  | perm hp _ ih => exact .perm (hp.map _) ih

variable (hfl : IsRounding fl)
include hfl

/-- A computed product `R @ X @ R.T` -/
theorem turn_error {R O X Y Z A : Matrix (Fin 3) (Fin 3) ℝ} (hR : NearRotation R O) {T : ℝ} (hT : 1 / 10 ^ 60 ≤ T) (hT' : T ≤ 10 ^ 60)
    (hA : fro A ≤ T) (hX : fro (X - A) + 270 * u * T ≤ T) (hY : matMulFloat fl R X Y) (hZ : matMulFloat fl Y Rᵀ Z) :
    fro (Z - O * A * Oᵀ) ≤ fro (X - A) + 525 * u * T := by
  have hu := u_pos
  have hT0 : 0 < T := lt_of_lt_of_le (by norm_num) hT
  have huT : 0 ≤ u * T := by positivity
  have h1 : fro (Y - O * A) ≤ fro (X - A) + 7 / 4 * (150 * u * T) := by
    rw [← fro_transpose (Y - O * A), ← fro_transpose (X - A)]
    refine fro_rows (by positivity) fun j => ?_
    have hx : vlen ((fun i => X i j) - fun i => A i j) ≤ T := by
      have := row_le_fro (X - A)ᵀ j
      rw [fro_transpose] at this
      refine le_trans this ?_
      linarith
    have h := step_vector hfl hR hT hT' (x := fun i => X i j) (y := fun i => A i j) (v := fun i => Y i j)
      (fun i => (entry_le_fro A i j).trans hA) hx (fun i => hY i j)
    exact h
  have h2 : fro (Z - O * A * Oᵀ) ≤ fro (Y - O * A) + 7 / 4 * (150 * u * T) := by
    refine fro_rows (by positivity) fun i => ?_
    have hx : vlen (Y i - (O * A) i) ≤ T := by
      refine (row_le_fro (Y - O * A) i).trans (h1.trans ?_)
      linarith
    have h := step_vector hfl hR hT hT' (x := Y i) (y := (O * A) i) (v := Z i)
      (fun k => (entry_le_fro (O * A) i k).trans (by rw [fro_mul hR.1]; exact hA)) hx (fun j => by
        have := (hZ i j).swap
        rw [List.map_ofFn] at this
        exact this)
    have e : O *ᵥ (O * A) i = (O * A * Oᵀ) i := by
      funext j
      rw [Matrix.mul_apply]
      simp only [mulVec, dotProduct, transpose_apply, mul_comm]
    rw [e] at h
    exact h
  linarith

/-- The second moments about the center of mass that the parameters stand for -/
def IP.centered (p : IP ℝ) : Matrix (Fin 3) (Fin 3) ℝ := Matrix.of fun i j => p.H i j - p.mass * p.com i * p.com j

/-- One call of `transform`. -/
theorem transform_step {p q : IP ℝ} {R O A : Matrix (Fin 3) (Fin 3) ℝ} {t c : Fin 3 → ℝ} (h : p.transformFloat fl R t q)
    (hR : NearRotation R O) {S D E : ℝ} (hm1 : 1 / 10 ^ 20 ≤ p.mass) (hm2 : p.mass ≤ 10 ^ 20) (hS1 : 1 / 10 ^ 15 ≤ S) (hS2 : S ≤ 10 ^ 15)
    (hc : ∀ i, |c i| ≤ S) (hc' : ∀ i, |rigid O t c i| ≤ S) (hD : vlen (p.com - c) ≤ D) (hDS : D + 160 * u * S ≤ 1 / 100 * S)
    (hA : fro A ≤ 3 * (p.mass * S ^ 2)) (hE : fro (p.centered - A) ≤ E)
    (hES : E + 1700 * u * (p.mass * S ^ 2) ≤ 1 / 100 * (p.mass * S ^ 2)) :
    q.mass = p.mass ∧ vlen (q.com - rigid O t c) ≤ D + 160 * u * S ∧
      fro (q.centered - O * A * Oᵀ) ≤ E + 1700 * u * (p.mass * S ^ 2) := by
  obtain ⟨hmass, ⟨v, hv, hcom⟩, Y, Z, hY, hZ, hH⟩ := h
  have hu := u_pos
  have hu1 := u_le
  have hu2 := u_ge
  have hS0 : 0 < S := lt_of_lt_of_le (by norm_num) hS1
  have hm0 : 0 < p.mass := lt_of_lt_of_le (by norm_num) hm1
  have huS : 0 < u * S := by positivity
  have hSS1 : 1 / 10 ^ 30 ≤ S ^ 2 := by
    have : (1 / 10 ^ 15 : ℝ) ^ 2 ≤ S ^ 2 := pow_le_pow_left₀ (by norm_num) hS1 2
    exact le_trans (by norm_num) this
  have hSS2 : S ^ 2 ≤ 10 ^ 30 := by
    have : S ^ 2 ≤ (10 ^ 15) ^ 2 := pow_le_pow_left₀ hS0.le hS2 2
    exact this.trans (by norm_num)
  set W := p.mass * S ^ 2 with hW
  have hW0 : 0 < W := by positivity
  have hW1 : 1 / 10 ^ 50 ≤ W := by
    have : (1 / 10 ^ 20 : ℝ) * (1 / 10 ^ 30) ≤ W := mul_le_mul hm1 hSS1 (by norm_num) hm0.le
    exact le_trans (by norm_num) this
  have hW2 : W ≤ 10 ^ 50 := by
    have : W ≤ 10 ^ 20 * 10 ^ 30 := mul_le_mul hm2 hSS2 (by positivity) (by norm_num)
    exact this.trans (by norm_num)
  have huW : 0 < u * W := by positivity
  have huW1 : 1 / 10 ^ 66 ≤ u * W := by
    have : (1 / 10 ^ 16 : ℝ) * (1 / 10 ^ 50) ≤ u * W := mul_le_mul hu2 hW1 (by norm_num) hu.le
    exact le_trans (by norm_num) this
  have huW2 : u * W ≤ 1 / 10 ^ 10 * W := mul_le_mul_of_nonneg_right (hu1.trans (by norm_num)) hW0.le
  have htiny : (1 : ℝ) / 10 ^ 200 ≤ 1 / 1000 * (1 / 10 ^ 66) := by norm_num
  have hD0 : 0 ≤ D := (vlen_nonneg _).trans hD
  have hE0 : 0 ≤ E := (fro_nonneg _).trans hE
  -- the centers
  have hcenter : vlen (q.com - rigid O t c) ≤ D + 160 * u * S := by
    have h := step_center hfl hR (le_trans (by norm_num) hS1) (hS2.trans (by norm_num)) hc hc' (hD.trans (by linarith)) hv hcom
    linarith
  have hpc : ∀ i, |p.com i| ≤ 101 / 100 * S := by
    intro i
    have h1 := (abs_le_vlen (p.com - c) i).trans hD
    have h2 := abs_sub_abs_le_abs_sub (p.com i) (c i)
    rw [Pi.sub_apply] at h1
    linarith [hc i]
  have hqc : ∀ i, |q.com i| ≤ 101 / 100 * S := by
    intro i
    have h1 := (abs_le_vlen (q.com - rigid O t c) i).trans hcenter
    have h2 := abs_sub_abs_le_abs_sub (q.com i) (rigid O t c i)
    rw [Pi.sub_apply] at h1
    linarith [hc' i]
  -- the outer products
  have houter : ∀ a b : ℝ, |a| ≤ 101 / 100 * S → |b| ≤ 101 / 100 * S →
      |fl (p.mass * fl (a * b)) - p.mass * (a * b)| ≤ 21 / 10 * (u * W) ∧ |p.mass * (a * b)| ≤ 103 / 100 * W := by
    intro a b ha hb
    have hab : |a * b| ≤ 103 / 100 * S ^ 2 := by
      rw [abs_mul]
      have := mul_le_mul ha hb (abs_nonneg _) (by positivity)
      have h2 : 101 / 100 * S * (101 / 100 * S) = 10201 / 10000 * S ^ 2 := by ring
      have h3 : 0 ≤ S ^ 2 := sq_nonneg S
      linarith
    have h1 := mass_term_error hfl (m := p.mass) (p := a * b) (T := 103 / 100 * S ^ 2) hm0.le (hm2.trans (by norm_num))
      (by linarith [show (1 : ℝ) / 10 ^ 60 ≤ 1 / 10 ^ 30 by norm_num]) (by linarith [show (103 / 100 * 10 ^ 30 : ℝ) ≤ 10 ^ 60 by norm_num]) hab
    have h2 : 2002 / 1000 * (u * (p.mass * (103 / 100 * S ^ 2))) = 2002 / 1000 * (103 / 100) * (u * W) := by rw [hW]; ring
    refine ⟨by linarith, ?_⟩
    rw [abs_mul, abs_of_pos hm0]
    have := mul_le_mul_of_nonneg_left hab hm0.le
    linarith
  -- the second moments about the center of mass
  have hBA : fro p.centered ≤ 301 / 100 * W := by
    have e : p.centered = (p.centered - A) + A := by rw [sub_add_cancel]
    have := fro_add (p.centered - A) A
    rw [← e] at this
    linarith
  have hX : fro (p.HcFloat fl - p.centered) ≤ 3 * (52 / 10 * (u * W)) := by
    refine fro_le fun i j => ?_
    obtain ⟨h1, h1'⟩ := houter (p.com i) (p.com j) (hpc i) (hpc j)
    have h2 : |p.H i j - p.mass * p.com i * p.com j| ≤ 301 / 100 * W := (entry_le_fro p.centered i j).trans hBA
    show |fl (p.H i j - fl (p.mass * fl (p.com i * p.com j))) - (p.H i j - p.mass * p.com i * p.com j)| ≤ _
    rw [mul_assoc] at h2 ⊢
    generalize fl (p.mass * fl (p.com i * p.com j)) = b at h1 ⊢
    generalize p.mass * (p.com i * p.com j) = b' at h1 h2 ⊢
    generalize p.H i j = H at h2 ⊢
    have h3 : |H - b| ≤ 302 / 100 * W := by
      have := abs_sub_le (H - b) (H - b') 0
      rw [sub_zero, sub_zero, sub_sub_sub_cancel_left, abs_sub_comm b' b] at this
      linarith
    have h4 := fl_near hfl (x := H - b) (h3.trans (by linarith [show (302 / 100 * 10 ^ 50 : ℝ) ≤ 10 ^ 150 by norm_num]))
    have h5 : u * |H - b| ≤ u * (302 / 100 * W) := mul_le_mul_of_nonneg_left h3 hu.le
    have h6 := abs_sub_le (fl (H - b)) (H - b) (H - b')
    rw [sub_sub_sub_cancel_left, abs_sub_comm b' b] at h6
    linarith
  have hXA : fro (p.HcFloat fl - A) ≤ E + 156 / 10 * (u * W) := by
    have e : p.HcFloat fl - A = (p.HcFloat fl - p.centered) + (p.centered - A) := by rw [sub_add_sub_cancel]
    have := fro_add (p.HcFloat fl - p.centered) (p.centered - A)
    rw [← e] at this
    linarith
  have hZA := turn_error hfl hR (T := 3 * W) (X := p.HcFloat fl) (A := A) (by linarith [show (1 : ℝ) / 10 ^ 60 ≤ 1 / 10 ^ 50 by norm_num])
    (by linarith [show (3 * 10 ^ 50 : ℝ) ≤ 10 ^ 60 by norm_num]) hA (by linarith) hY hZ
  have hZA' : fro (Z - O * A * Oᵀ) ≤ E + 1591 * (u * W) := by linarith
  have hZ' : fro Z ≤ 302 / 100 * W := by
    have e : Z = (Z - O * A * Oᵀ) + O * A * Oᵀ := by rw [sub_add_cancel]
    have := fro_add (Z - O * A * Oᵀ) (O * A * Oᵀ)
    rw [← e, fro_mul_transpose hR.1, fro_mul hR.1] at this
    linarith
  have hB : fro (q.centered - Z) ≤ 3 * (64 / 10 * (u * W)) := by
    refine fro_le fun i j => ?_
    obtain ⟨h1, h1'⟩ := houter (q.com i) (q.com j) (hqc i) (hqc j)
    have h2 : |Z i j| ≤ 302 / 100 * W := (entry_le_fro Z i j).trans hZ'
    show |q.H i j - q.mass * q.com i * q.com j - Z i j| ≤ _
    rw [hH i j, hmass, mul_assoc]
    generalize fl (p.mass * fl (q.com i * q.com j)) = b at h1 ⊢
    generalize p.mass * (q.com i * q.com j) = b' at h1 h1' ⊢
    generalize Z i j = z at h2 ⊢
    have h3 : |z + b| ≤ 41 / 10 * W := by
      have h4 := abs_add_le z b
      have h5 := abs_sub_abs_le_abs_sub b b'
      linarith
    have h4 := fl_near hfl (x := z + b) (h3.trans (by linarith [show (41 / 10 * 10 ^ 50 : ℝ) ≤ 10 ^ 150 by norm_num]))
    have h5 : u * |z + b| ≤ u * (41 / 10 * W) := mul_le_mul_of_nonneg_left h3 hu.le
    have e : fl (z + b) - b' - z = (fl (z + b) - (z + b)) + (b - b') := by ring
    have h6 := abs_add_le (fl (z + b) - (z + b)) (b - b')
    rw [e]
    linarith
  refine ⟨hmass, hcenter, ?_⟩
  have e : q.centered - O * A * Oᵀ = (q.centered - Z) + (Z - O * A * Oᵀ) := by rw [sub_add_sub_cancel]
  have := fro_add (q.centered - Z) (Z - O * A * Oᵀ)
  rw [← e] at this
  linarith

/-! ### Any number of steps -/

/-- Any number of calls. -/
theorem transforms_error {args l : List Motion} (hl : List.Forall₂ NearMotion args l) {p q : IP ℝ}
    (h : calls (fun (p : IP ℝ) (m : Motion) q => p.transformFloat fl m.rotation m.translation q) p args q)
    {A : Matrix (Fin 3) (Fin 3) ℝ} {c : Fin 3 → ℝ} {S D E : ℝ} (hm1 : 1 / 10 ^ 20 ≤ p.mass) (hm2 : p.mass ≤ 10 ^ 20)
    (hS1 : 1 / 10 ^ 15 ≤ S) (hS2 : S ≤ 10 ^ 15) (hs : StaysWithin S l c) (hD : vlen (p.com - c) ≤ D)
    (hDS : D + 160 * l.length * u * S ≤ 1 / 100 * S) (hA : fro A ≤ 3 * (p.mass * S ^ 2)) (hE : fro (p.centered - A) ≤ E)
    (hES : E + 1700 * l.length * u * (p.mass * S ^ 2) ≤ 1 / 100 * (p.mass * S ^ 2)) :
    q.mass = p.mass ∧ vlen (q.com - movedBy l c) ≤ D + 160 * l.length * u * S ∧
      fro (q.centered - turnedBy l A) ≤ E + 1700 * l.length * u * (p.mass * S ^ 2) := by
  have hu := u_pos
  have hS0 : 0 < S := lt_of_lt_of_le (by norm_num) hS1
  induction hl generalizing p A c D E with
  | nil =>
    have h' : q = p := h
    subst h'
    refine ⟨rfl, ?_, ?_⟩
    · simpa [movedBy] using hD
    · simpa [turnedBy] using hE
  | @cons a m args l ham hl ih =>
    obtain ⟨r, h1, h2⟩ := h
    have hm0 : 0 < p.mass := lt_of_lt_of_le (by norm_num) hm1
    have huS : 0 ≤ l.length * (u * S) := by positivity
    have huW : 0 ≤ l.length * (u * (p.mass * S ^ 2)) := by positivity
    have e1 : 160 * ((m :: l).length : ℝ) * u * S = 160 * u * S + 160 * (l.length * (u * S)) := by
      rw [List.length_cons]; push_cast; ring
    have e2 : 1700 * ((m :: l).length : ℝ) * u * (p.mass * S ^ 2) =
        1700 * u * (p.mass * S ^ 2) + 1700 * (l.length * (u * (p.mass * S ^ 2))) := by
      rw [List.length_cons]; push_cast; ring
    rw [e1] at hDS ⊢
    rw [e2] at hES ⊢
    change IP.transformFloat fl p a.rotation a.translation r at h1
    rw [ham.2] at h1
    obtain ⟨g1, g2, g3⟩ := transform_step hfl h1 ham.1 hm1 hm2 hS1 hS2 (fun i => by simpa [movedBy] using hs 0 i)
      (fun i => by simpa [movedBy] using hs 1 i) hD (by linarith) hA hE (by linarith)
    have hA' : fro (m.rotation * A * m.rotationᵀ) ≤ 3 * (r.mass * S ^ 2) := by
      rw [fro_mul_transpose ham.1.1, fro_mul ham.1.1, g1]
      exact hA
    obtain ⟨k1, k2, k3⟩ := ih h2 (by rw [g1]; exact hm1) (by rw [g1]; exact hm2)
      (fun k i => by simpa [movedBy] using hs (k + 1) i) g2 (by linarith) hA' g3 (by rw [g1]; linarith)
    rw [g1] at k1 k3
    refine ⟨k1, ?_, ?_⟩
    · exact k2.trans (by linarith)
    · exact k3.trans (by linarith)

/-- C123: Calling `InertialParameters.transform` any number of times `N` keeps the mass, moves the center of mass up to `160 N u S`, and
turns the second moments about the center of mass up to `1700 N u m S²` in every entry. `S` bounds the coordinates of the center of mass
on its way and the radii of gyration; `u = 2⁻⁵³`. -/
theorem C123_transforms {args l : List Motion} (hl : List.Forall₂ NearMotion args l) {p q : IP ℝ}
    (h : calls (fun (p : IP ℝ) (m : Motion) q => p.transformFloat fl m.rotation m.translation q) p args q) {S : ℝ}
    (hm1 : 1 / 10 ^ 20 ≤ p.mass) (hm2 : p.mass ≤ 10 ^ 20) (hS1 : 1 / 10 ^ 15 ≤ S) (hS2 : S ≤ 10 ^ 15) (hs : StaysWithin S l p.com)
    (hH : ∀ i j, |p.H i j - p.mass * p.com i * p.com j| ≤ p.mass * S ^ 2) (hN : l.length ≤ 10 ^ 10) :
    q.mass = p.mass ∧ (∀ i, |q.com i - movedBy l p.com i| ≤ 160 * l.length * 2 ^ (-53 : ℤ) * S) ∧
      ∀ i j, |(q.H i j - q.mass * q.com i * q.com j) - turnedBy l (Matrix.of fun i j => p.H i j - p.mass * p.com i * p.com j) i j| ≤
        1700 * l.length * 2 ^ (-53 : ℤ) * (p.mass * S ^ 2) := by
  have hu := u_pos
  have hu1 := u_le
  have hS0 : 0 < S := lt_of_lt_of_le (by norm_num) hS1
  have hm0 : 0 < p.mass := lt_of_lt_of_le (by norm_num) hm1
  have hN' : (l.length : ℝ) ≤ 10 ^ 10 := by exact_mod_cast hN
  have hNu : (l.length : ℝ) * u ≤ 1 / 10 ^ 5 * (1 / 5) := by
    have : (l.length : ℝ) * u ≤ 10 ^ 10 * (112 / 10 ^ 18) := mul_le_mul hN' hu1 hu.le (by norm_num)
    exact this.trans (by norm_num)
  have hW0 : 0 < p.mass * S ^ 2 := by positivity
  have k1 : (l.length : ℝ) * u * S ≤ 1 / 10 ^ 5 * (1 / 5) * S := mul_le_mul_of_nonneg_right hNu hS0.le
  have k2 : (l.length : ℝ) * u * (p.mass * S ^ 2) ≤ 1 / 10 ^ 5 * (1 / 5) * (p.mass * S ^ 2) := mul_le_mul_of_nonneg_right hNu hW0.le
  have hz : vlen (p.com - p.com) ≤ 0 := by
    rw [sub_self]
    have := vlen_le (x := (0 : Fin 3 → ℝ)) (a := 0) (fun i => by simp)
    simpa using this
  have hz' : fro (p.centered - p.centered) ≤ 0 := by
    rw [sub_self]
    have := fro_le (A := (0 : Matrix (Fin 3) (Fin 3) ℝ)) (a := 0) (fun i j => by simp)
    simpa using this
  obtain ⟨h1, h2, h3⟩ := transforms_error hfl hl h hm1 hm2 hS1 hS2 hs hz (by linarith) (fro_le hH) hz' (by linarith)
  rw [zero_add] at h2 h3
  exact ⟨h1, fun i => (abs_le_vlen (q.com - movedBy l p.com) i).trans h2, fun i j => (entry_le_fro _ i j).trans h3⟩

omit hfl in
/-- Turning keeps the sign of a quadratic form. -/
theorem turnedBy_nonneg {l : List Motion} {A : Matrix (Fin 3) (Fin 3) ℝ} (hA : ∀ z : Fin 3 → ℝ, 0 ≤ z ⬝ᵥ (A *ᵥ z)) (z : Fin 3 → ℝ) :
    0 ≤ z ⬝ᵥ (turnedBy l A *ᵥ z) := by
  induction l generalizing A with
  | nil => exact hA z
  | cons m l ih =>
    refine ih fun y => ?_
    have := hA (m.rotationᵀ *ᵥ y)
    rw [← mulVec_mulVec, ← mulVec_mulVec, dotProduct_mulVec, ← mulVec_transpose]
    exact this

/-- C123: Parameters that are physically consistent stay so up to rounding: the second moments about the center of mass have no
direction in which they are below `-5100 N u m S²`. -/
theorem C123_consistent {args l : List Motion} (hl : List.Forall₂ NearMotion args l) {p q : IP ℝ}
    (h : calls (fun (p : IP ℝ) (m : Motion) q => p.transformFloat fl m.rotation m.translation q) p args q) {S : ℝ}
    (hm1 : 1 / 10 ^ 20 ≤ p.mass) (hm2 : p.mass ≤ 10 ^ 20) (hS1 : 1 / 10 ^ 15 ≤ S) (hS2 : S ≤ 10 ^ 15) (hs : StaysWithin S l p.com)
    (hH : ∀ i j, |p.H i j - p.mass * p.com i * p.com j| ≤ p.mass * S ^ 2) (hN : l.length ≤ 10 ^ 10) (hp : PSD p.J) (z : Fin 3 → ℝ) :
    -(5100 * l.length * 2 ^ (-53 : ℤ) * (p.mass * S ^ 2)) * ∑ i, z i ^ 2 ≤
      ∑ i, ∑ j, z i * (q.H i j - q.mass * q.com i * q.com j) * z j := by
  obtain ⟨-, -, h3⟩ := C123_transforms hfl hl h hm1 hm2 hS1 hS2 hs hH hN
  rw [show (2 : ℝ) ^ (-53 : ℤ) = u from rfl] at *
  have hu := u_pos
  have hm0 : 0 < p.mass := lt_of_lt_of_le (by norm_num) hm1
  set A : Matrix (Fin 3) (Fin 3) ℝ := Matrix.of fun i j => p.H i j - p.mass * p.com i * p.com j with hAdef
  have hA : ∀ z : Fin 3 → ℝ, 0 ≤ z ⬝ᵥ (A *ᵥ z) := by
    intro z
    have h := hp.2 ![z 0, z 1, z 2, -(z 0 * p.com 0 + z 1 * p.com 1 + z 2 * p.com 2)]
    have e00 : ∀ i j : Fin 3, p.J i.castSucc j.castSucc = p.H i j := fun i j => by fin_cases i <;> fin_cases j <;> rfl
    have e03 : ∀ i : Fin 3, p.J i.castSucc 3 = p.mass * p.com i := fun i => by fin_cases i <;> rfl
    have e30 : ∀ i : Fin 3, p.J 3 i.castSucc = p.mass * p.com i := fun i => by fin_cases i <;> rfl
    have e33 : p.J 3 3 = p.mass := rfl
    have a00 := e00 0 0; have a01 := e00 0 1; have a02 := e00 0 2
    have a10 := e00 1 0; have a11 := e00 1 1; have a12 := e00 1 2
    have a20 := e00 2 0; have a21 := e00 2 1; have a22 := e00 2 2
    have b0 := e03 0; have b1 := e03 1; have b2 := e03 2
    have d0 := e30 0; have d1 := e30 1; have d2 := e30 2
    simp only [show Fin.castSucc (0 : Fin 3) = (0 : Fin 4) from rfl, show Fin.castSucc (1 : Fin 3) = (1 : Fin 4) from rfl,
      show Fin.castSucc (2 : Fin 3) = (2 : Fin 4) from rfl] at a00 a01 a02 a10 a11 a12 a20 a21 a22 b0 b1 b2 d0 d1 d2
    simp only [mulVec, dotProduct, Fin.sum_univ_four, Matrix.cons_val, a00, a01, a02, a10, a11, a12, a20, a21, a22, b0, b1, b2, d0, d1,
      d2, e33] at h
    simp only [mulVec, dotProduct, Fin.sum_univ_three, hAdef, Matrix.of_apply]
    refine h.trans (le_of_eq ?_)
    ring
  have hexact := turnedBy_nonneg (l := l) hA z
  set B := turnedBy l A with hB
  set η := 1700 * (l.length : ℝ) * u * (p.mass * S ^ 2) with hη
  have hη0 : 0 ≤ η := by positivity
  have hdiff : ∀ i j, z i * B i j * z j - η * (|z i| * |z j|) ≤ z i * (q.H i j - q.mass * q.com i * q.com j) * z j := by
    intro i j
    have h2 : |z i * ((q.H i j - q.mass * q.com i * q.com j) - B i j) * z j| ≤ η * (|z i| * |z j|) := by
      rw [abs_mul, abs_mul]
      have := mul_le_mul_of_nonneg_right (h3 i j) (mul_nonneg (abs_nonneg (z i)) (abs_nonneg (z j)))
      linarith
    have h4 := (abs_le.mp h2).1
    have h5 : z i * ((q.H i j - q.mass * q.com i * q.com j) - B i j) * z j =
        z i * (q.H i j - q.mass * q.com i * q.com j) * z j - z i * B i j * z j := by ring
    linarith
  have hsum := Finset.sum_le_sum fun i (_ : i ∈ Finset.univ) => Finset.sum_le_sum fun j (_ : j ∈ Finset.univ) => hdiff i j
  simp only [Finset.sum_sub_distrib] at hsum
  have hquad : ∑ i, ∑ j, z i * B i j * z j = z ⬝ᵥ (B *ᵥ z) := by
    simp only [mulVec, dotProduct, Finset.mul_sum, mul_assoc]
  have hzz : ∑ i, ∑ j, η * (|z i| * |z j|) ≤ 3 * η * ∑ i, z i ^ 2 := by
    have h1 : ∑ i, ∑ j, η * (|z i| * |z j|) = η * (|z 0| + |z 1| + |z 2|) ^ 2 := by
      simp only [Fin.sum_univ_three]
      ring
    have h2 : (|z 0| + |z 1| + |z 2|) ^ 2 ≤ 3 * ∑ i, z i ^ 2 := by
      rw [Fin.sum_univ_three, ← sq_abs (z 0), ← sq_abs (z 1), ← sq_abs (z 2)]
      nlinarith [sq_nonneg (|z 0| - |z 1|), sq_nonneg (|z 1| - |z 2|), sq_nonneg (|z 0| - |z 2|)]
    rw [h1]
    calc _ ≤ η * (3 * ∑ i, z i ^ 2) := mul_le_mul_of_nonneg_left h2 hη0
      _ = _ := by ring
  rw [hquad] at hsum
  have h70 : -(5100 * (l.length : ℝ) * u * (p.mass * S ^ 2)) * ∑ i, z i ^ 2 = -(3 * η * ∑ i, z i ^ 2) := by rw [hη]; ring
  rw [h70]
  linarith

omit hfl in
/-- C123: The turned matrix is the right one: for masses that move along with the center `c`, it has the second moments of the moved
masses about the moved center. -/
theorem C123_moved_masses {n : ℕ} (m : Fin n → ℝ) (x : Fin n → Fin 3 → ℝ) (c : Fin 3 → ℝ) (l : List Motion) (i j : Fin 3) :
    turnedBy l (Matrix.of fun i j => ∑ k, m k * (x k i - c i) * (x k j - c j)) i j =
      ∑ k, m k * (movedBy l (x k) i - movedBy l c i) * (movedBy l (x k) j - movedBy l c j) := by
  induction l generalizing x c with
  | nil => rfl
  | cons M l ih =>
    have e : M.rotation * (Matrix.of fun i j => ∑ k, m k * (x k i - c i) * (x k j - c j)) * M.rotationᵀ =
        Matrix.of fun i j => ∑ k, m k * (rigid M.rotation M.translation (x k) i - rigid M.rotation M.translation c i) *
          (rigid M.rotation M.translation (x k) j - rigid M.rotation M.translation c j) := by
      ext i j
      have h : ∀ (y : Fin 3 → ℝ) (i : Fin 3), rigid M.rotation M.translation y i - rigid M.rotation M.translation c i =
          ∑ a, M.rotation i a * (y a - c a) := by
        intro y i
        simp only [rigid, Pi.add_apply, mulVec, dotProduct, Fin.sum_univ_three]
        ring
      simp only [h, Matrix.mul_apply, transpose_apply, Matrix.of_apply, Fin.sum_univ_three, Finset.mul_sum, Finset.sum_mul,
        ← Finset.sum_add_distrib]
      exact Finset.sum_congr rfl fun k _ => by ring
    show turnedBy l (M.rotation * _ * M.rotationᵀ) i j = _
    rw [e]
    exact ih (fun k => rigid M.rotation M.translation (x k)) (rigid M.rotation M.translation c)

omit hfl in
/-- C123: There is a result for every sequence of calls. -/
theorem C123_result (p : IP ℝ) (args : List Motion) :
    ∃ q, calls (fun (p : IP ℝ) (m : Motion) q => p.transformFloat fl m.rotation m.translation q) p args q := by
  induction args generalizing p with
  | nil => exact ⟨p, rfl⟩
  | cons m args ih =>
    obtain ⟨Y, hY⟩ := matMulFloat.exists fl m.rotation (p.HcFloat fl)
    obtain ⟨Z, hZ⟩ := matMulFloat.exists fl Y m.rotationᵀ
    choose v hv using fun i => FlDot.exists (fl := fl) (List.ofFn fun j => (m.rotation i j, p.com j))
    let c : Fin 3 → ℝ := fun i => fl (v i + m.translation i)
    let x : IP ℝ := ⟨p.mass, c, Matrix.of fun i j => fl (Z i j + fl (p.mass * fl (c i * c j)))⟩
    obtain ⟨q, hq⟩ := ih x
    exact ⟨q, x, ⟨rfl, ⟨v, hv, fun _ => rfl⟩, Y, Z, hY, hZ, fun _ _ => rfl⟩, hq⟩

end

/-! ### The hypotheses can be met -/

/-- A body of mass 2 at distance 1 from the origin, turned about it by a right angle any number of times. -/
example (n : ℕ) : ∃ (p : IP ℝ) (args l : List Motion), List.Forall₂ NearMotion args l ∧ l.length = n ∧ p.mass = 2 ∧ PSD p.J ∧
    StaysWithin 1 l p.com ∧ ∀ i j, |p.H i j - p.mass * p.com i * p.com j| ≤ p.mass * 1 ^ 2 := by
  let Q : Matrix (Fin 3) (Fin 3) ℝ := !![0, -1, 0; 1, 0, 0; 0, 0, 1]
  have hQ : Orthogonal Q := by
    unfold Orthogonal
    ext i j
    rw [Matrix.mul_apply, Fin.sum_univ_three]
    fin_cases i <;> fin_cases j <;> simp [Q]
  refine ⟨⟨2, ![1, 0, 0], !![3, 0, 0; 0, 1, 0; 0, 0, 1]⟩, List.replicate n ⟨Q, 0⟩, List.replicate n ⟨Q, 0⟩, ?_, by simp, rfl, ?_, ?_, ?_⟩
  · induction n with
    | zero => exact .nil
    | succ n ih => exact .cons ⟨⟨hQ, fun i j => by simp⟩, rfl⟩ ih
  · have e : (⟨2, ![1, 0, 0], !![3, 0, 0; 0, 1, 0; 0, 0, 1]⟩ : IP ℝ).J = !![3, 0, 0, 2; 0, 1, 0, 0; 0, 0, 1, 0; 2, 0, 0, 2] := by
      ext i j
      fin_cases i <;> fin_cases j <;> first | rfl | (show (2 : ℝ) * 1 = 2; norm_num) | (show (2 : ℝ) * 0 = 0; norm_num)
    rw [e]
    refine ⟨by ext i j; fin_cases i <;> fin_cases j <;> rfl, fun v => ?_⟩
    simp only [mulVec, dotProduct, Fin.sum_univ_four, Matrix.of_apply, Matrix.cons_val]
    nlinarith [sq_nonneg (v 0 + v 3), sq_nonneg (v 1), sq_nonneg (v 2), sq_nonneg (v 0)]
  · have hmv : ∀ (k : ℕ) (p : Fin 3 → ℝ), vlen (movedBy (List.replicate k ⟨Q, 0⟩) p) = vlen p := by
      intro k
      induction k with
      | zero => exact fun p => rfl
      | succ k ih =>
        intro p
        show vlen (movedBy (List.replicate k ⟨Q, 0⟩) (rigid Q 0 p)) = _
        rw [ih]
        simp only [rigid, add_zero]
        exact vlen_orthogonal hQ p
    intro k i
    rw [List.take_replicate]
    refine (abs_le_vlen _ i).trans ?_
    rw [hmv]
    refine le_of_sq_le_sq ?_ zero_le_one
    rw [vlen_sq]
    simp [dotProduct, Fin.sum_univ_three]
  · intro i j
    fin_cases i <;> fin_cases j <;> simp <;> norm_num

end Rigeo
