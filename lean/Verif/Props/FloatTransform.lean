import Mathlib.Analysis.InnerProductSpace.PiL2
import Verif.Model.FloatTransform
import Verif.Spec.FloatTransform
import Verif.Spec.Shapes
import Verif.Lemmas.Shapes
import Verif.Props.FloatRealize

/-!
# C121: rounding in repeated transforms of shapes
-/

namespace Rigeo

open Spec Matrix

local notation "u" => unitRoundoff

/-! ### Lengths of vectors -/

/-- The length of a vector -/
noncomputable def vlen (x : Fin 3 → ℝ) : ℝ := ‖(WithLp.toLp 2 x : EuclideanSpace ℝ (Fin 3))‖

theorem vlen_nonneg (x : Fin 3 → ℝ) : 0 ≤ vlen x := norm_nonneg _

theorem vlen_add (x y : Fin 3 → ℝ) : vlen (x + y) ≤ vlen x + vlen y := by
  unfold vlen
  rw [WithLp.toLp_add]
  exact norm_add_le _ _

theorem vlen_sq (x : Fin 3 → ℝ) : vlen x ^ 2 = x ⬝ᵥ x := by
  unfold vlen
  rw [EuclideanSpace.real_norm_sq_eq]
  simp [dotProduct, pow_two]

theorem abs_le_vlen (x : Fin 3 → ℝ) (i : Fin 3) : |x i| ≤ vlen x := by
  have h : x i ^ 2 ≤ vlen x ^ 2 := by
    rw [vlen_sq, dotProduct]
    have := Finset.single_le_sum (f := fun j => x j * x j) (fun j _ => mul_self_nonneg (x j)) (Finset.mem_univ i)
    simpa [pow_two] using this
  exact abs_le_of_sq_le_sq h (vlen_nonneg x)

theorem vlen_le {x : Fin 3 → ℝ} {a : ℝ} (h : ∀ i, |x i| ≤ a) : vlen x ≤ 7 / 4 * a := by
  have ha : 0 ≤ a := (abs_nonneg _).trans (h 0)
  have h1 : ∀ i, x i * x i ≤ a * a := fun i => by
    rw [← abs_mul_abs_self]
    exact mul_le_mul (h i) (h i) (abs_nonneg _) ha
  refine le_of_sq_le_sq ?_ (by positivity)
  rw [vlen_sq, dotProduct, Fin.sum_univ_three]
  nlinarith [h1 0, h1 1, h1 2]

theorem vlen_orthogonal {O : Matrix (Fin 3) (Fin 3) ℝ} (hO : Orthogonal O) (x : Fin 3 → ℝ) : vlen (O *ᵥ x) = vlen x := by
  have h : vlen (O *ᵥ x) ^ 2 = vlen x ^ 2 := by rw [vlen_sq, vlen_sq, dot_mulVec_orthogonal hO]
  exact (pow_left_inj₀ (vlen_nonneg _) (vlen_nonneg _) two_ne_zero).1 h

theorem orthogonal_entry {O : Matrix (Fin 3) (Fin 3) ℝ} (hO : Orthogonal O) (i j : Fin 3) : |O i j| ≤ 1 := by
  have h1 := abs_le_vlen (O *ᵥ Pi.single j 1) i
  rw [vlen_orthogonal hO] at h1
  have h2 : vlen (Pi.single j (1 : ℝ)) = 1 := by
    have : vlen (Pi.single j (1 : ℝ)) ^ 2 = 1 ^ 2 := by rw [vlen_sq]; simp
    exact (pow_left_inj₀ (vlen_nonneg _) zero_le_one two_ne_zero).1 this
  rw [h2] at h1
  simpa using h1

/-! ### One step -/

section
variable {fl : ℝ → ℝ} (hfl : IsRounding fl)
include hfl

/-- A computed product of a matrix with a vector that is off by the vector `x - y`. -/
theorem step_vector {R O : Matrix (Fin 3) (Fin 3) ℝ} (hR : NearRotation R O) {x y v : Fin 3 → ℝ} {S : ℝ} (hS : 1 / 10 ^ 60 ≤ S)
    (hS' : S ≤ 10 ^ 60) (hy : ∀ i, |y i| ≤ S) (hD : vlen (x - y) ≤ S)
    (hv : ∀ i, FlDot fl (List.ofFn fun j => (R i j, x j)) (v i)) : vlen (v - O *ᵥ y) ≤ vlen (x - y) + 150 * u * S := by
  have hu0 := u_pos
  have hu1 := u_le
  have hu2 : 110 / 10 ^ 18 ≤ u := by unfold unitRoundoff; norm_num
  have hS0 : 0 < S := lt_of_lt_of_le (by norm_num) hS
  have hRO : ∀ i j, |R i j - O i j| ≤ 8 * u := hR.2
  have hRb : ∀ i j, |R i j| ≤ 101 / 100 := by
    intro i j
    have h1 := hRO i j
    have h2 := orthogonal_entry hR.1 i j
    have h3 := abs_add_le (R i j - O i j) (O i j)
    rw [sub_add_cancel] at h3
    linarith
  have hx : ∀ j, |x j| ≤ 2 * S := by
    intro j
    have h1 := abs_le_vlen (x - y) j
    have h3 := abs_add_le (x j - y j) (y j)
    rw [sub_add_cancel] at h3
    rw [Pi.sub_apply] at h1
    linarith [hy j]
  have hsum : ∀ i, ∑ j, |R i j * x j| ≤ 606 / 100 * S := by
    intro i
    have : ∀ j, |R i j * x j| ≤ 101 / 100 * (2 * S) := fun j => by
      rw [abs_mul]
      exact mul_le_mul (hRb i j) (hx j) (abs_nonneg _) (by norm_num)
    rw [Fin.sum_univ_three]
    linarith [this 0, this 1, this 2]
  have e : v - O *ᵥ y = O *ᵥ (x - y) + fun i => (v i - ∑ j, R i j * x j) + ∑ j, (R i j - O i j) * x j := by
    funext i
    simp only [Pi.sub_apply, Pi.add_apply, mulVec, dotProduct, Fin.sum_univ_three]
    ring
  have h1 : ∀ i, |(v i - ∑ j, R i j * x j) + ∑ j, (R i j - O i j) * x j| ≤ 85 * u * S := by
    intro i
    have h2 := dot_error hfl (hv i) (by norm_num) ((hsum i).trans (by linarith))
    have h3 : |∑ j, (R i j - O i j) * x j| ≤ 48 * u * S := by
      have : ∀ j, |(R i j - O i j) * x j| ≤ 8 * u * (2 * S) := fun j => by
        rw [abs_mul]
        exact mul_le_mul (hRO i j) (hx j) (abs_nonneg _) (by positivity)
      refine (Finset.abs_sum_le_sum_abs _ _).trans ?_
      rw [Fin.sum_univ_three]
      linarith [this 0, this 1, this 2]
    have h4 : 2 * ((3 : ℕ) : ℝ) * u * ∑ j, |R i j * x j| ≤ 3636 / 100 * (u * S) := by
      have := mul_le_mul_of_nonneg_left (hsum i) (by positivity : 0 ≤ 2 * ((3 : ℕ) : ℝ) * u)
      refine this.trans (le_of_eq ?_)
      push_cast
      ring
    have h5 : (1 : ℝ) / 10 ^ 190 ≤ 1 / 100 * (u * S) := by
      have h6 : 110 / 10 ^ 18 * (1 / 10 ^ 60) ≤ u * S := mul_le_mul hu2 hS (by norm_num) hu0.le
      have h7 : (1 : ℝ) / 10 ^ 190 ≤ 1 / 100 * (110 / 10 ^ 18 * (1 / 10 ^ 60)) := by norm_num
      linarith
    have h8 := abs_add_le (v i - ∑ j, R i j * x j) (∑ j, (R i j - O i j) * x j)
    have h9 : (R i ⬝ᵥ x : ℝ) = ∑ j, R i j * x j := rfl
    change |v i - R i ⬝ᵥ x| ≤ _ at h2
    rw [h9] at h2
    have h10 : 0 ≤ u * S := by positivity
    linarith
  rw [e]
  refine (vlen_add _ _).trans ?_
  rw [vlen_orthogonal hR.1]
  have h2 := vlen_le h1
  have h3 : 0 ≤ u * S := by positivity
  linarith

/-- The center after one call. -/
theorem step_center {R O : Matrix (Fin 3) (Fin 3) ℝ} (hR : NearRotation R O) {x y v t x' : Fin 3 → ℝ} {S : ℝ} (hS : 1 / 10 ^ 60 ≤ S)
    (hS' : S ≤ 10 ^ 60) (hy : ∀ i, |y i| ≤ S) (hy' : ∀ i, |rigid O t y i| ≤ S) (hD : vlen (x - y) ≤ S)
    (hv : ∀ i, FlDot fl (List.ofFn fun j => (R i j, x j)) (v i)) (hx' : ∀ i, x' i = fl (v i + t i)) :
    vlen (x' - rigid O t y) ≤ vlen (x - y) + 160 * u * S := by
  have hu0 := u_pos
  have hu1 := u_le
  have hu2 : 110 / 10 ^ 18 ≤ u := by unfold unitRoundoff; norm_num
  have hS0 : 0 < S := lt_of_lt_of_le (by norm_num) hS
  have h1 := step_vector hfl hR hS hS' hy hD hv
  have huS : 150 * u * S ≤ S := by
    have : 150 * u ≤ 1 := by linarith
    exact mul_le_of_le_one_left hS0.le this
  have e : x' - rigid O t y = (v - O *ᵥ y) + fun i => fl (v i + t i) - (v i + t i) := by
    funext i
    simp only [Pi.sub_apply, Pi.add_apply, rigid, hx']
    ring
  have h2 : ∀ i, |fl (v i + t i) - (v i + t i)| ≤ 5 * u * S := by
    intro i
    have h3 : |v i + t i| ≤ 3 * S := by
      have h4 := abs_le_vlen (v - O *ᵥ y) i
      have h5 := abs_add_le ((v - O *ᵥ y) i) (rigid O t y i)
      have h6 : (v - O *ᵥ y) i + rigid O t y i = v i + t i := by
        simp only [Pi.sub_apply, Pi.add_apply, rigid]
        ring
      rw [h6] at h5
      linarith [hy' i]
    have h4 := fl_near hfl (h3.trans (by linarith : 3 * S ≤ 10 ^ 150))
    have h5 : (1 : ℝ) / 10 ^ 200 ≤ u * S := by
      have h6 : 110 / 10 ^ 18 * (1 / 10 ^ 60) ≤ u * S := mul_le_mul hu2 hS (by norm_num) hu0.le
      exact le_trans (by norm_num) h6
    have h6 := mul_le_mul_of_nonneg_left h3 hu0.le
    have h7 : 0 ≤ u * S := by positivity
    linarith
  rw [e]
  refine (vlen_add _ _).trans ?_
  have h3 := vlen_le h2
  have h4 : 0 ≤ u * S := by positivity
  linarith

/-! ### Any number of steps -/

/-- The exact rotation after one motion after the other. -/
noncomputable def rotatedBy : List Motion → Matrix (Fin 3) (Fin 3) ℝ → Matrix (Fin 3) (Fin 3) ℝ
  | [], O => O
  | m :: l, O => rotatedBy l (m.rotation * O)

omit hfl in
theorem movedBy_rigid (l : List Motion) (O : Matrix (Fin 3) (Fin 3) ℝ) (c y : Fin 3 → ℝ) :
    movedBy l (rigid O c y) = rigid (rotatedBy l O) (movedBy l c) y := by
  induction l generalizing O c with
  | nil => rfl
  | cons m l ih =>
    have : rigid m.rotation m.translation (rigid O c y) = rigid (m.rotation * O) (rigid m.rotation m.translation c) y := by
      simp only [rigid, mulVec_add, mulVec_mulVec, add_assoc]
    simp only [movedBy, rotatedBy, this, ih]

omit hfl in
theorem rotatedBy_orthogonal {args l : List Motion} (h : List.Forall₂ NearMotion args l) {O : Matrix (Fin 3) (Fin 3) ℝ}
    (hO : Orthogonal O) : Orthogonal (rotatedBy l O) := by
  induction h generalizing O with
  | nil => exact hO
  | cons h1 _ ih => exact ih (h1.1.1.mul hO)

/-- A shape with its pose -/
abbrev PoseState := Matrix (Fin 3) (Fin 3) ℝ × (Fin 3 → ℝ)

/-- The pose after a sequence of calls. -/
theorem pose_error {args l : List Motion} (h : List.Forall₂ NearMotion args l) {s s' : PoseState}
    (hc : calls (fun (s : PoseState) (m : Motion) s' => poseFloat fl m.rotation m.translation s.1 s.2 s'.1 s'.2) s args s')
    {O : Matrix (Fin 3) (Fin 3) ℝ} {c : Fin 3 → ℝ} (hO : Orthogonal O) {S D E : ℝ} (hS : 1 / 10 ^ 60 ≤ S) (hS' : S ≤ 10 ^ 60)
    (hs : StaysWithin S l c) (hD : vlen (s.2 - c) ≤ D) (hE : ∀ j, vlen ((fun i => s.1 i j) - fun i => O i j) ≤ E)
    (hDS : D + 160 * l.length * u * S ≤ S) (hE1 : E + 160 * l.length * u ≤ 1) :
    vlen (s'.2 - movedBy l c) ≤ D + 160 * l.length * u * S ∧
      ∀ j, vlen ((fun i => s'.1 i j) - fun i => rotatedBy l O i j) ≤ E + 160 * l.length * u := by
  have hu0 := u_pos
  have hS0 : 0 < S := lt_of_lt_of_le (by norm_num) hS
  induction h generalizing s O c D E with
  | nil =>
    obtain rfl : s' = s := hc
    simp only [List.length_nil, Nat.cast_zero, mul_zero, zero_mul, add_zero]
    exact ⟨hD, hE⟩
  | @cons a m args l h1 h2 ih =>
    obtain ⟨s₁, ⟨hm, v, hv, hx⟩, hrest⟩ := hc
    have hlen : (((m :: l).length : ℕ) : ℝ) = l.length + 1 := by simp
    rw [hlen] at hDS hE1 ⊢
    have hl0 : (0 : ℝ) ≤ l.length := Nat.cast_nonneg _
    have p1 : 0 ≤ (l.length : ℝ) * u * S := by positivity
    have p2 : 0 ≤ (l.length : ℝ) * u := by positivity
    have p3 : 0 ≤ u * S := by positivity
    have hc0 : ∀ i, |c i| ≤ S := fun i => by simpa [movedBy] using hs 0 i
    have hc1 : ∀ i, |rigid m.rotation a.translation c i| ≤ S := fun i => by
      have := hs 1 i
      simpa [movedBy, h1.2] using this
    have hcen := step_center hfl h1.1 hS hS' hc0 hc1 (hD.trans (by nlinarith)) hv hx
    have hrot : ∀ j, vlen ((fun i => s₁.1 i j) - fun i => (m.rotation * O) i j) ≤ E + 160 * u := by
      intro j
      have := step_vector hfl (x := fun k => s.1 k j) (y := fun k => O k j) (v := fun i => s₁.1 i j) h1.1 (S := 1) (by norm_num)
        (by norm_num) (fun i => orthogonal_entry hO i j) ((hE j).trans (by nlinarith)) (fun i => hm i j)
      have e : (fun i => (m.rotation * O) i j) = m.rotation *ᵥ fun k => O k j := by
        funext i
        rw [Matrix.mul_apply]; rfl
      rw [e]
      linarith [hE j]
    rw [h1.2] at hcen
    have hs' : StaysWithin S l (rigid m.rotation m.translation c) := fun k i => by simpa [movedBy] using hs (k + 1) i
    obtain ⟨h3, h4⟩ := ih hrest (h1.1.1.mul hO) hs' (hcen.trans (by linarith : _ ≤ D + 160 * u * S)) hrot (by nlinarith)
      (by nlinarith)
    refine ⟨?_, fun j => ?_⟩
    · show vlen (s'.2 - movedBy l (rigid m.rotation m.translation c)) ≤ _
      refine h3.trans (le_of_eq ?_)
      ring
    · show vlen ((fun i => s'.1 i j) - fun i => rotatedBy l (m.rotation * O) i j) ≤ _
      refine (h4 j).trans (le_of_eq ?_)
      ring

omit hfl in
/-- A sequence of calls for one kind of shape, in terms of the pose. -/
theorem calls_map {α γ β : Type} {step : α → β → α → Prop} {step' : γ → β → γ → Prop} (f : α → γ)
    (h : ∀ a m b, step a m b → step' (f a) m (f b)) {a b : α} {l : List β} (hc : calls step a l b) : calls step' (f a) l (f b) := by
  induction l generalizing a with
  | nil => exact congrArg f hc
  | cons m l ih =>
    obtain ⟨x, h1, h2⟩ := hc
    exact ⟨f x, h _ _ _ h1, ih h2⟩

omit hfl in
/-- What no call changes stays the same. -/
theorem calls_const {α γ β : Type} {step : α → β → α → Prop} (f : α → γ) (h : ∀ a m b, step a m b → f b = f a) {a b : α}
    {l : List β} (hc : calls step a l b) : f b = f a := by
  induction l generalizing a with
  | nil => exact congrArg f hc
  | cons m l ih =>
    obtain ⟨x, h1, h2⟩ := hc
    rw [ih h2, h _ _ _ h1]

/-- A point fixed to the shape, after a sequence of calls. -/
theorem pose_point {args l : List Motion} (h : List.Forall₂ NearMotion args l) {s s' : PoseState}
    (hc : calls (fun (s : PoseState) (m : Motion) s' => poseFloat fl m.rotation m.translation s.1 s.2 s'.1 s'.2) s args s')
    {O : Matrix (Fin 3) (Fin 3) ℝ} (hO : NearRotation s.1 O) {S : ℝ} (hS : 1 / 10 ^ 60 ≤ S) (hS' : S ≤ 10 ^ 60)
    (hs : StaysWithin S l s.2) (hN : l.length ≤ 10 ^ 12) :
    (∀ (y : Fin 3 → ℝ) (i : Fin 3), |rigid s'.1 s'.2 y i - movedBy l (rigid O s.2 y) i| ≤
      160 * (l.length + 1) * u * (S + ∑ j, |y j|)) ∧
    (∀ i j, |s'.1 i j - rotatedBy l O i j| ≤ 160 * (l.length + 1) * u) ∧ 160 * (l.length + 1) * u ≤ 1 / 10 := by
  have hu0 := u_pos
  have hu1 := u_le
  have hS0 : 0 < S := lt_of_lt_of_le (by norm_num) hS
  have hNr : (l.length : ℝ) ≤ 10 ^ 12 := by exact_mod_cast hN
  have hNu : (l.length : ℝ) * u ≤ 10 ^ 12 * (112 / 10 ^ 18) := mul_le_mul hNr hu1 hu0.le (by norm_num)
  have hl0 : (0 : ℝ) ≤ l.length := Nat.cast_nonneg _
  have hNS : (l.length : ℝ) * u * S ≤ 10 ^ 12 * (112 / 10 ^ 18) * S := mul_le_mul_of_nonneg_right hNu hS0.le
  have hE : ∀ j, vlen ((fun i => s.1 i j) - fun i => O i j) ≤ 16 * u := fun j => by
    have := vlen_le (x := (fun i => s.1 i j) - fun i => O i j) (a := 8 * u) fun i => hO.2 i j
    linarith
  obtain ⟨h1, h2⟩ := pose_error hfl h hc hO.1 hS hS' hs (D := 0) (E := 16 * u) (by simp [vlen]) hE (by linarith) (by linarith)
  have h3 : ∀ i j, |s'.1 i j - rotatedBy l O i j| ≤ 160 * (l.length + 1) * u := fun i j => by
    have := (abs_le_vlen _ i).trans (h2 j)
    simp only [Pi.sub_apply] at this
    linarith
  refine ⟨fun y i => ?_, h3, by linarith⟩
  rw [movedBy_rigid]
  have e : rigid s'.1 s'.2 y i - rigid (rotatedBy l O) (movedBy l s.2) y i =
      (s'.2 - movedBy l s.2) i + ∑ j, (s'.1 i j - rotatedBy l O i j) * y j := by
    simp only [rigid, Pi.add_apply, Pi.sub_apply, mulVec, dotProduct, Fin.sum_univ_three]
    ring
  rw [e]
  refine (abs_add_le _ _).trans ?_
  have h4 := (abs_le_vlen _ i).trans h1
  have h5 : |∑ j, (s'.1 i j - rotatedBy l O i j) * y j| ≤ 160 * (l.length + 1) * u * ∑ j, |y j| := by
    refine (Finset.abs_sum_le_sum_abs _ _).trans ?_
    rw [Finset.mul_sum]
    refine Finset.sum_le_sum fun j _ => ?_
    rw [abs_mul]
    exact mul_le_mul_of_nonneg_right (h3 i j) (abs_nonneg _)
  have p : 0 ≤ u * S := by positivity
  rw [mul_add]
  linarith

/-- The calls `shape.transform(rotation, translation)`, one after the other, with the arguments `args` -/
abbrev Box.transforms (fl : ℝ → ℝ) : Box ℝ → List Motion → Box ℝ → Prop := calls fun b m b' => b.transformFloat fl m.rotation m.translation b'

/-- The same for ellipsoids -/
abbrev Ellipsoid.transforms (fl : ℝ → ℝ) : Ellipsoid ℝ 3 → List Motion → Ellipsoid ℝ 3 → Prop :=
  calls fun e m e' => e.transformFloat fl m.rotation m.translation e'

/-- The same for cylinders -/
abbrev Cylinder.transforms (fl : ℝ → ℝ) : Cylinder ℝ → List Motion → Cylinder ℝ → Prop :=
  calls fun c m c' => c.transformFloat fl m.rotation m.translation c'

omit hfl in
theorem Box.transforms.pose {b b' : Box ℝ} {args : List Motion} (h : b.transforms fl args b') : b'.halfExtents = b.halfExtents ∧
    calls (fun (s : PoseState) (m : Motion) s' => poseFloat fl m.rotation m.translation s.1 s.2 s'.1 s'.2) (b.rotation, b.center) args
      (b'.rotation, b'.center) :=
  ⟨calls_const Box.halfExtents (fun _ _ _ h => h.1) h, calls_map (fun b : Box ℝ => (b.rotation, b.center)) (fun _ _ _ h => h.2) h⟩

omit hfl in
theorem Ellipsoid.transforms.pose {b b' : Ellipsoid ℝ 3} {args : List Motion} (h : b.transforms fl args b') :
    b'.halfExtents = b.halfExtents ∧
    calls (fun (s : PoseState) (m : Motion) s' => poseFloat fl m.rotation m.translation s.1 s.2 s'.1 s'.2) (b.rotation, b.center) args
      (b'.rotation, b'.center) :=
  ⟨calls_const Ellipsoid.halfExtents (fun _ _ _ h => h.1) h,
    calls_map (fun b : Ellipsoid ℝ 3 => (b.rotation, b.center)) (fun _ _ _ h => h.2) h⟩

omit hfl in
theorem Cylinder.transforms.pose {b b' : Cylinder ℝ} {args : List Motion} (h : b.transforms fl args b') :
    (b'.length = b.length ∧ b'.radius = b.radius) ∧
    calls (fun (s : PoseState) (m : Motion) s' => poseFloat fl m.rotation m.translation s.1 s.2 s'.1 s'.2) (b.rotation, b.center) args
      (b'.rotation, b'.center) :=
  ⟨⟨calls_const Cylinder.length (fun _ _ _ h => h.1) h, calls_const Cylinder.radius (fun _ _ _ h => h.2.1) h⟩,
    calls_map (fun b : Cylinder ℝ => (b.rotation, b.center)) (fun _ _ _ h => h.2.2) h⟩

/-- C121: a box after any number of calls of `transform` with rounding: every point of the true box, moved exactly, is close to a
point of the computed box, and every point of the computed box is close to one of the true box. The error grows at most linearly
with the number of calls; `S` bounds the coordinates of the true centers. The matrices need only be close to orthogonal. -/
theorem C121_box {b b' : Box ℝ} {args l : List Motion} (h : b.transforms fl args b') (hl : List.Forall₂ NearMotion args l)
    {O : Matrix (Fin 3) (Fin 3) ℝ} (hO : NearRotation b.rotation O) {S : ℝ} (hS : 1 / 10 ^ 60 ≤ S) (hS' : S ≤ 10 ^ 60)
    (hs : StaysWithin S l b.center) (hN : l.length ≤ 10 ^ 12) :
    (∀ p ∈ Spec.box b.halfExtents O b.center, ∃ q ∈ Spec.box b'.halfExtents b'.rotation b'.center, ∀ i,
      |q i - movedBy l p i| ≤ 160 * (l.length + 1) * (2 : ℝ) ^ (-53 : ℤ) * (S + ∑ j, b.halfExtents j)) ∧
    ∀ q ∈ Spec.box b'.halfExtents b'.rotation b'.center, ∃ p ∈ Spec.box b.halfExtents O b.center, ∀ i,
      |q i - movedBy l p i| ≤ 160 * (l.length + 1) * (2 : ℝ) ^ (-53 : ℤ) * (S + ∑ j, b.halfExtents j) := by
  obtain ⟨h1, h2⟩ := h.pose
  obtain ⟨h3, -, -⟩ := pose_point hfl hl h2 hO hS hS' hs hN
  have h4 : ∀ y : Fin 3 → ℝ, (∀ i, |y i| ≤ b.halfExtents i) → ∀ i, |rigid b'.rotation b'.center y i -
      movedBy l (rigid O b.center y) i| ≤ 160 * (l.length + 1) * u * (S + ∑ j, b.halfExtents j) := fun y hy i => by
    have hu0 := u_pos
    exact (h3 y i).trans (mul_le_mul_of_nonneg_left (add_le_add_right (Finset.sum_le_sum fun j _ => hy j) _) (by positivity))
  constructor
  · rintro p ⟨y, hy, rfl⟩
    exact ⟨_, ⟨y, by rwa [h1], rfl⟩, h4 y hy⟩
  · rintro q ⟨y, hy, rfl⟩
    rw [h1] at hy
    exact ⟨_, ⟨y, hy, rfl⟩, h4 y hy⟩

/-- C121: the same for ellipsoids. -/
theorem C121_ellipsoid {e e' : Ellipsoid ℝ 3} {args l : List Motion} (h : e.transforms fl args e')
    (hl : List.Forall₂ NearMotion args l) {O : Matrix (Fin 3) (Fin 3) ℝ} (hO : NearRotation e.rotation O) {S : ℝ}
    (hS : 1 / 10 ^ 60 ≤ S) (hS' : S ≤ 10 ^ 60) (hs : StaysWithin S l e.center) (hN : l.length ≤ 10 ^ 12)
    (hh : ∀ i, 0 ≤ e.halfExtents i) :
    (∀ p ∈ Spec.ellipsoid e.halfExtents O e.center, ∃ q ∈ Spec.ellipsoid e'.halfExtents e'.rotation e'.center, ∀ i,
      |q i - movedBy l p i| ≤ 160 * (l.length + 1) * (2 : ℝ) ^ (-53 : ℤ) * (S + ∑ j, e.halfExtents j)) ∧
    ∀ q ∈ Spec.ellipsoid e'.halfExtents e'.rotation e'.center, ∃ p ∈ Spec.ellipsoid e.halfExtents O e.center, ∀ i,
      |q i - movedBy l p i| ≤ 160 * (l.length + 1) * (2 : ℝ) ^ (-53 : ℤ) * (S + ∑ j, e.halfExtents j) := by
  obtain ⟨h1, h2⟩ := h.pose
  obtain ⟨h3, -, -⟩ := pose_point hfl hl h2 hO hS hS' hs hN
  have h4 : ∀ w : Fin 3 → ℝ, w ⬝ᵥ w ≤ 1 → ∀ i, |rigid e'.rotation e'.center (fun i => e.halfExtents i * w i) i -
      movedBy l (rigid O e.center fun i => e.halfExtents i * w i) i| ≤
        160 * (l.length + 1) * u * (S + ∑ j, e.halfExtents j) := fun w hw i => by
    have hu0 := u_pos
    refine (h3 _ i).trans (mul_le_mul_of_nonneg_left (add_le_add_right (Finset.sum_le_sum fun j _ => ?_) _) (by positivity))
    have hv : vlen w ≤ 1 := by
      have : vlen w ^ 2 ≤ 1 ^ 2 := by rw [vlen_sq]; simpa using hw
      exact le_of_sq_le_sq this zero_le_one
    rw [abs_mul, abs_of_nonneg (hh j)]
    exact mul_le_of_le_one_right (hh j) ((abs_le_vlen w j).trans hv)
  constructor
  · rintro p ⟨w, hw, rfl⟩
    exact ⟨_, ⟨w, hw, rfl⟩, by rw [h1]; exact h4 w hw⟩
  · rintro q ⟨w, hw, rfl⟩
    exact ⟨_, ⟨w, hw, rfl⟩, by rw [h1]; exact h4 w hw⟩

/-- C121: the same for cylinders. -/
theorem C121_cylinder {c c' : Cylinder ℝ} {args l : List Motion} (h : c.transforms fl args c')
    (hl : List.Forall₂ NearMotion args l) {O : Matrix (Fin 3) (Fin 3) ℝ} (hO : NearRotation c.rotation O) {S : ℝ}
    (hS : 1 / 10 ^ 60 ≤ S) (hS' : S ≤ 10 ^ 60) (hs : StaysWithin S l c.center) (hN : l.length ≤ 10 ^ 12) (hr : 0 ≤ c.radius) :
    (∀ p ∈ Spec.cylinder c.length c.radius O c.center, ∃ q ∈ Spec.cylinder c'.length c'.radius c'.rotation c'.center, ∀ i,
      |q i - movedBy l p i| ≤ 160 * (l.length + 1) * (2 : ℝ) ^ (-53 : ℤ) * (S + (2 * c.radius + c.length / 2))) ∧
    ∀ q ∈ Spec.cylinder c'.length c'.radius c'.rotation c'.center, ∃ p ∈ Spec.cylinder c.length c.radius O c.center, ∀ i,
      |q i - movedBy l p i| ≤ 160 * (l.length + 1) * (2 : ℝ) ^ (-53 : ℤ) * (S + (2 * c.radius + c.length / 2)) := by
  obtain ⟨⟨h1, h1'⟩, h2⟩ := h.pose
  obtain ⟨h3, -, -⟩ := pose_point hfl hl h2 hO hS hS' hs hN
  have h4 : ∀ y : Fin 3 → ℝ, |y 2| ≤ c.length / 2 → y 0 ^ 2 + y 1 ^ 2 ≤ c.radius ^ 2 → ∀ i, |rigid c'.rotation c'.center y i -
      movedBy l (rigid O c.center y) i| ≤ 160 * (l.length + 1) * u * (S + (2 * c.radius + c.length / 2)) := fun y hy hy' i => by
    have hu0 := u_pos
    refine (h3 y i).trans (mul_le_mul_of_nonneg_left (add_le_add_right ?_ _) (by positivity))
    have a0 : |y 0| ≤ c.radius := abs_le_of_sq_le_sq (by nlinarith [sq_nonneg (y 1)]) hr
    have a1 : |y 1| ≤ c.radius := abs_le_of_sq_le_sq (by nlinarith [sq_nonneg (y 0)]) hr
    rw [Fin.sum_univ_three]
    linarith
  constructor
  · rintro p ⟨y, hy, hy', rfl⟩
    exact ⟨_, ⟨y, by rwa [h1], by rwa [h1'], rfl⟩, h4 y hy hy'⟩
  · rintro q ⟨y, hy, hy', rfl⟩
    rw [h1] at hy
    rw [h1'] at hy'
    exact ⟨_, ⟨y, hy, hy', rfl⟩, h4 y hy hy'⟩

/-- C121: the computed rotation stays close to orthogonal: after `N` calls the products of its columns are off by at most
`1200 (N + 1) 2⁻⁵³`. -/
theorem C121_orthogonal {b b' : Box ℝ} {args l : List Motion} (h : b.transforms fl args b') (hl : List.Forall₂ NearMotion args l)
    {O : Matrix (Fin 3) (Fin 3) ℝ} (hO : NearRotation b.rotation O) {S : ℝ} (hS : 1 / 10 ^ 60 ≤ S) (hS' : S ≤ 10 ^ 60)
    (hs : StaysWithin S l b.center) (hN : l.length ≤ 10 ^ 12) (i j : Fin 3) :
    |(b'.rotationᵀ * b'.rotation) i j - (1 : Matrix (Fin 3) (Fin 3) ℝ) i j| ≤ 1200 * (l.length + 1) * (2 : ℝ) ^ (-53 : ℤ) := by
  obtain ⟨h1, h2⟩ := h.pose
  obtain ⟨-, h3, h4⟩ := pose_point hfl hl h2 hO hS hS' hs hN
  set P := rotatedBy l O
  have hP : Orthogonal P := rotatedBy_orthogonal hl hO.1
  set η := 160 * ((l.length : ℝ) + 1) * u
  have hη : 0 ≤ η := by have := u_pos; positivity
  have hk : ∀ k, |b'.rotation k i * b'.rotation k j - P k i * P k j| ≤ 21 / 10 * η := by
    intro k
    have a1 := h3 k i
    have a2 := h3 k j
    have a3 := orthogonal_entry hP k i
    have a4 := orthogonal_entry hP k j
    have e : b'.rotation k i * b'.rotation k j - P k i * P k j =
        (b'.rotation k i - P k i) * (b'.rotation k j - P k j) + (b'.rotation k i - P k i) * P k j +
          P k i * (b'.rotation k j - P k j) := by ring
    rw [e]
    have b1 := mul_le_mul a1 a2 (abs_nonneg _) hη
    have b2 := mul_le_mul a1 a4 (abs_nonneg _) hη
    have b3 := mul_le_mul a3 a2 (abs_nonneg _) zero_le_one
    have b4 : η * η ≤ 1 / 10 * η := mul_le_mul_of_nonneg_right h4 hη
    rw [← abs_mul] at b1 b2 b3
    refine (abs_add_le _ _).trans ((add_le_add_left (abs_add_le _ _) _).trans ?_)
    linarith
  have e : (b'.rotationᵀ * b'.rotation) i j - (1 : Matrix (Fin 3) (Fin 3) ℝ) i j =
      ∑ k, (b'.rotation k i * b'.rotation k j - P k i * P k j) := by
    rw [← hP, Matrix.mul_apply, Matrix.mul_apply, Finset.sum_sub_distrib]
    rfl
  rw [e]
  refine (Finset.abs_sum_le_sum_abs _ _).trans ?_
  rw [Fin.sum_univ_three]
  have hu : (2 : ℝ) ^ (-53 : ℤ) = u := rfl
  rw [hu]
  have e2 : 1200 * ((l.length : ℝ) + 1) * u = 75 / 10 * η := by
    show _ = 75 / 10 * (160 * ((l.length : ℝ) + 1) * u)
    ring
  rw [e2]
  linarith [hk 0, hk 1, hk 2]

/-- The coordinates in the frame of the computed box, against those in the frame of the true box. -/
theorem pose_frame {b b' : Box ℝ} {args l : List Motion} (h : b.transforms fl args b') (hl : List.Forall₂ NearMotion args l)
    {O : Matrix (Fin 3) (Fin 3) ℝ} (hO : NearRotation b.rotation O) {S : ℝ} (hS : 1 / 10 ^ 60 ≤ S) (hS' : S ≤ 10 ^ 60)
    (hs : StaysWithin S l b.center) (hN : l.length ≤ 10 ^ 12) {η : ℝ} (hη : η = 160 * (l.length + 1) * u) (y e q : Fin 3 → ℝ)
    (hq : q = movedBy l (rigid O b.center y) + e) {a w : ℝ} (he : ∀ i, |e i| ≤ a) (hw : vlen y ≤ w) (i : Fin 3) :
    |(b'.rotationᵀ *ᵥ (q - b'.center)) i - y i| ≤ 3 * η * w + 33 / 10 * (a + η * S) ∧ (∀ i j, |b'.rotation i j| ≤ 1 + η) ∧
      ∀ i, |b'.center i| ≤ S + η * S := by
  obtain ⟨h1, h2⟩ := h.pose
  obtain ⟨h3, h3', h4⟩ := pose_point hfl hl h2 hO hS hS' hs hN
  rw [← hη] at h3 h3' h4
  have hS0 : 0 < S := lt_of_lt_of_le (by norm_num) hS
  have hη0 : 0 ≤ η := by rw [hη]; have := u_pos; positivity
  set P := rotatedBy l O
  have hP : Orthogonal P := rotatedBy_orthogonal hl hO.1
  have hf : ∀ i, |b'.center i - movedBy l b.center i| ≤ η * S := fun i => by
    have := h3 0 i
    simpa [rigid] using this
  have hR : ∀ i j, |b'.rotation i j| ≤ 1 + η := fun i j => by
    have a1 := abs_add_le (b'.rotation i j - P i j) (P i j)
    rw [sub_add_cancel] at a1
    linarith [h3' i j, orthogonal_entry hP i j]
  refine ⟨?_, hR, fun i => ?_⟩
  · have ha : 0 ≤ a := (abs_nonneg _).trans (he 0)
    have hPy : ∀ k, |(P *ᵥ y) k| ≤ w := fun k => (abs_le_vlen _ k).trans (by rw [vlen_orthogonal hP]; exact hw)
    have hw0 : 0 ≤ w := (vlen_nonneg y).trans hw
    have e1 : q - b'.center = P *ᵥ y + fun k => e k - (b'.center k - movedBy l b.center k) := by
      rw [hq, movedBy_rigid]
      funext k
      simp only [Pi.sub_apply, Pi.add_apply, rigid]
      ring
    have e2 : y = Pᵀ *ᵥ (P *ᵥ y) := by rw [mulVec_mulVec, hP, one_mulVec]
    have e3 : (b'.rotationᵀ *ᵥ (q - b'.center)) i - y i = ∑ k, (b'.rotation k i - P k i) * (P *ᵥ y) k +
        ∑ k, b'.rotation k i * (e k - (b'.center k - movedBy l b.center k)) := by
      have e4 : y i = ∑ k, P k i * (P *ᵥ y) k := congrFun e2 i
      have e5 : (b'.rotationᵀ *ᵥ (q - b'.center)) i =
          ∑ k, b'.rotation k i * ((P *ᵥ y) k + (e k - (b'.center k - movedBy l b.center k))) := by rw [e1]; rfl
      rw [e4, e5]
      simp only [Fin.sum_univ_three]
      ring
    rw [e3]
    have b1 : ∀ k, |(b'.rotation k i - P k i) * (P *ᵥ y) k| ≤ η * w := fun k => by
      rw [abs_mul]
      exact mul_le_mul (h3' k i) (hPy k) (abs_nonneg _) hη0
    have b2 : ∀ k, |b'.rotation k i * (e k - (b'.center k - movedBy l b.center k))| ≤ 11 / 10 * (a + η * S) := fun k => by
      rw [abs_mul]
      refine mul_le_mul ((hR k i).trans (by linarith)) ?_ (abs_nonneg _) (by norm_num)
      exact (abs_sub _ _).trans (add_le_add (he k) (hf k))
    have c1 := Finset.abs_sum_le_sum_abs (fun k => (b'.rotation k i - P k i) * (P *ᵥ y) k) Finset.univ
    have c2 := Finset.abs_sum_le_sum_abs (fun k => b'.rotation k i * (e k - (b'.center k - movedBy l b.center k))) Finset.univ
    refine (abs_add_le _ _).trans ?_
    rw [Fin.sum_univ_three (f := fun k => |(b'.rotation k i - P k i) * (P *ᵥ y) k|)] at c1
    rw [Fin.sum_univ_three (f := fun k => |b'.rotation k i * (e k - (b'.center k - movedBy l b.center k))|)] at c2
    linarith [b1 0, b1 1, b1 2, b2 0, b2 1, b2 2]
  · have a1 := abs_add_le (b'.center i - movedBy l b.center i) (movedBy l b.center i)
    rw [sub_add_cancel] at a1
    have a2 := hs l.length i
    rw [List.take_length] at a2
    linarith [hf i]

/-- C121: membership after any number of transforms, with rounding in the transforms and in the test: if the error bound of `C121_box`
is at most `5e-10`, `contains` accepts every point within `1e-10` of the truly moved box. -/
theorem C121_contains_accepts {b b' : Box ℝ} {args l : List Motion} (h : b.transforms fl args b')
    (hl : List.Forall₂ NearMotion args l) {O : Matrix (Fin 3) (Fin 3) ℝ} (hO : NearRotation b.rotation O) {S : ℝ}
    (hS : 1 / 10 ^ 60 ≤ S) (hs : StaysWithin S l b.center) (hN : l.length ≤ 10 ^ 11)
    (hsize : S + ∑ j, b.halfExtents j ≤ 9 * 10 ^ 5)
    (herr : 160 * (l.length + 1) * (2 : ℝ) ^ (-53 : ℤ) * (S + ∑ j, b.halfExtents j) ≤ 5 / 10 ^ 10) {p q : Fin 3 → ℝ}
    (hp : p ∈ Spec.box b.halfExtents O b.center) (hq : ∀ i, |q i - movedBy l p i| ≤ 1 / 10 ^ 10) {answer : Bool}
    (hc : b'.containsFloat fl q (fl (1 / 10 ^ 8)) answer) : answer = true := by
  obtain ⟨y, hy, rfl⟩ := hp
  have hS0 : 0 < S := lt_of_lt_of_le (by norm_num) hS
  have hh0 : ∀ i, 0 ≤ b.halfExtents i := fun i => (abs_nonneg _).trans (hy i)
  have hsum0 : 0 ≤ ∑ j, b.halfExtents j := Finset.sum_nonneg fun j _ => hh0 j
  have hhs : ∀ i, b.halfExtents i ≤ ∑ j, b.halfExtents j := fun i =>
    Finset.single_le_sum (f := b.halfExtents) (fun j _ => hh0 j) (Finset.mem_univ i)
  have hw : vlen y ≤ ∑ j, b.halfExtents j := by
    refine le_of_sq_le_sq ?_ hsum0
    rw [vlen_sq, dotProduct, Fin.sum_univ_three, Fin.sum_univ_three]
    have m : ∀ i, y i * y i ≤ b.halfExtents i * b.halfExtents i := fun i => by
      rw [← abs_mul_abs_self]
      exact mul_le_mul (hy i) (hy i) (abs_nonneg _) (hh0 i)
    nlinarith [m 0, m 1, m 2, mul_nonneg (hh0 0) (hh0 1), mul_nonneg (hh0 0) (hh0 2), mul_nonneg (hh0 1) (hh0 2)]
  obtain ⟨h1, h2⟩ := h.pose
  have hS' : S ≤ 10 ^ 60 := by linarith
  have hN' : l.length ≤ 10 ^ 12 := hN.trans (by norm_num)
  obtain ⟨-, -, h4⟩ := pose_point hfl hl h2 hO hS hS' hs hN'
  have key := pose_frame hfl h hl hO hS hS' hs hN' rfl y (q - movedBy l (rigid O b.center y)) q (by simp) hq hw
  set η := 160 * ((l.length : ℝ) + 1) * u with hηd
  have hη0 : 0 ≤ η := by have := u_pos; positivity
  have herr' : η * (S + ∑ j, b.halfExtents j) ≤ 5 / 10 ^ 10 := herr
  rw [mul_add] at herr'
  have q0 : 0 ≤ η * S := by positivity
  have q1 : 0 ≤ η * ∑ j, b.halfExtents j := by positivity
  have hηS : η * S ≤ 1 / 10 * S := mul_le_mul_of_nonneg_right h4 hS0.le
  have hmoved : ∀ i, |movedBy l (rigid O b.center y) i| ≤ S + ∑ j, b.halfExtents j := fun i => by
    rw [movedBy_rigid]
    have a1 := abs_add_le ((rotatedBy l O *ᵥ y) i) (movedBy l b.center i)
    have a2 := hs l.length i
    rw [List.take_length] at a2
    have a3 := abs_le_vlen (rotatedBy l O *ᵥ y) i
    rw [vlen_orthogonal (rotatedBy_orthogonal hl hO.1)] at a3
    simp only [rigid, Pi.add_apply]
    linarith
  have hqb : ∀ i, |q i| ≤ 10 ^ 6 := fun i => by
    have a1 := abs_add_le (q i - movedBy l (rigid O b.center y) i) (movedBy l (rigid O b.center y) i)
    rw [sub_add_cancel] at a1
    linarith [hq i, hmoved i]
  obtain ⟨t, s, ht, hsd, hiff⟩ := box_float_rows hc
  have hηe : η ≤ 1 / 100 := by
    have hNr : (l.length : ℝ) ≤ 10 ^ 11 := by exact_mod_cast hN
    have := mul_le_mul hNr u_le u_pos.le (by norm_num)
    have := u_le
    rw [hηd]
    linarith
  have hR : ∀ j i, |b'.rotation j i| ≤ 101 / 100 := fun j i => ((key 0).2.1 j i).trans (by linarith)
  have hc' : ∀ j, |b'.center j| ≤ 10 ^ 6 := fun j => ((key 0).2.2 j).trans (by linarith)
  have hhb : ∀ i, |b'.halfExtents i| ≤ 10 ^ 6 := fun i => by
    rw [h1, abs_of_nonneg (hh0 i)]
    linarith [hhs i]
  rw [hiff]
  intro i k
  have hi := abs_le.mp (key i).1
  have hyi := abs_le.mp (hy i)
  have hhi : b'.halfExtents i = b.halfExtents i := by rw [h1]
  cases k
  · have e := abs_le.mp (box_face_error hfl (ht i).1 (hsd i).1 (fun j => hR j i) hc' hqb (hhb i))
    rw [← col_dot] at e
    norm_num at e hi herr' ⊢
    linarith [e.1, e.2, hi.1, hi.2]
  · have e := abs_le.mp (box_face_error hfl (ht i).2 (hsd i).2 (fun j => (abs_neg _).trans_le (hR j i)) hc' hqb (hhb i))
    rw [← neg_col_dot] at e
    norm_num at e hi herr' ⊢
    linarith [e.1, e.2, hi.1, hi.2]

/-- C121: and what `contains` accepts is close to the truly moved box: within the half extents grown by `3e-8`. -/
theorem C121_contains_sound {b b' : Box ℝ} {args l : List Motion} (h : b.transforms fl args b')
    (hl : List.Forall₂ NearMotion args l) {O : Matrix (Fin 3) (Fin 3) ℝ} (hO : NearRotation b.rotation O) {S : ℝ}
    (hS : 1 / 10 ^ 60 ≤ S) (hs : StaysWithin S l b.center) (hN : l.length ≤ 10 ^ 11) (hh0 : ∀ i, 0 ≤ b.halfExtents i)
    (hsize : S + ∑ j, b.halfExtents j ≤ 9 * 10 ^ 5)
    (herr : 160 * (l.length + 1) * (2 : ℝ) ^ (-53 : ℤ) * (1 + S + ∑ j, b.halfExtents j) ≤ 5 / 10 ^ 10) {q : Fin 3 → ℝ}
    (hq : ∀ i, |q i| ≤ 10 ^ 6) (hc : b'.containsFloat fl q (fl (1 / 10 ^ 8)) true) :
    ∃ p ∈ Spec.box (fun i => b.halfExtents i + 3 / 10 ^ 8) O b.center, q = movedBy l p := by
  have hS0 : 0 < S := lt_of_lt_of_le (by norm_num) hS
  have hsum0 : 0 ≤ ∑ j, b.halfExtents j := Finset.sum_nonneg fun j _ => hh0 j
  have hhs : ∀ i, b.halfExtents i ≤ ∑ j, b.halfExtents j := fun i =>
    Finset.single_le_sum (f := b.halfExtents) (fun j _ => hh0 j) (Finset.mem_univ i)
  obtain ⟨h1, h2⟩ := h.pose
  have hS' : S ≤ 10 ^ 60 := by linarith
  have hN' : l.length ≤ 10 ^ 12 := hN.trans (by norm_num)
  have hP : Orthogonal (rotatedBy l O) := rotatedBy_orthogonal hl hO.1
  have hqe : q = movedBy l (rigid O b.center ((rotatedBy l O)ᵀ *ᵥ (q - movedBy l b.center))) := by
    rw [movedBy_rigid]
    exact (rigid_iff hP _ _ _).2 rfl
  set y := (rotatedBy l O)ᵀ *ᵥ (q - movedBy l b.center) with hy
  have key := pose_frame hfl h hl hO hS hS' hs hN' rfl y 0 q (by rw [add_zero]; exact hqe) (a := 0) (by simp) le_rfl
  set η := 160 * ((l.length : ℝ) + 1) * u with hηd
  have hη0 : 0 ≤ η := by have := u_pos; positivity
  have herr' : η * (1 + S + ∑ j, b.halfExtents j) ≤ 5 / 10 ^ 10 := herr
  have e0 : η * (1 + S + ∑ j, b.halfExtents j) = η + η * S + η * ∑ j, b.halfExtents j := by ring
  rw [e0] at herr'
  have q0 : 0 ≤ η * S := by positivity
  have q1 : 0 ≤ η * ∑ j, b.halfExtents j := by positivity
  have hηe : η ≤ 5 / 10 ^ 10 := by linarith
  have hηS : η * S ≤ 5 / 10 ^ 10 := by linarith
  have hR : ∀ j i, |b'.rotation j i| ≤ 101 / 100 := fun j i => ((key 0).2.1 j i).trans (by linarith)
  have hc' : ∀ j, |b'.center j| ≤ 10 ^ 6 := fun j => ((key 0).2.2 j).trans (by linarith)
  have hhb : ∀ i, |b'.halfExtents i| ≤ 10 ^ 6 := fun i => by
    rw [h1, abs_of_nonneg (hh0 i)]
    linarith [hhs i]
  have hin := C105_box_sound hfl b' q hR hc' hq hhb hc
  have hyb : ∀ i, |y i| ≤ b.halfExtents i + 17 / 10 ^ 9 + (3 * η * vlen y + 33 / 10 * (η * S)) := fun i => by
    have a1 := (key i).1
    rw [zero_add] at a1
    have a2 := hin i
    rw [h1] at a2
    have a3 := abs_sub_abs_le_abs_sub (y i) ((b'.rotationᵀ *ᵥ (q - b'.center)) i)
    rw [abs_sub_comm] at a3
    linarith
  have hv : vlen y ≤ 2 * (1 + ∑ j, b.halfExtents j) := by
    have a1 := vlen_le (x := y) (a := ∑ j, b.halfExtents j + 17 / 10 ^ 9 + (3 * η * vlen y + 33 / 10 * (η * S))) fun i =>
      (hyb i).trans (by linarith [hhs i])
    have a2 : η * vlen y ≤ 5 / 10 ^ 10 * vlen y := mul_le_mul_of_nonneg_right hηe (vlen_nonneg y)
    have := vlen_nonneg y
    norm_num at *
    linarith
  refine ⟨_, ⟨y, fun i => ?_, rfl⟩, hqe⟩
  have a1 := hyb i
  have a2 := mul_le_mul_of_nonneg_left hv hη0
  have e2 : η * (2 * (1 + ∑ j, b.halfExtents j)) = 2 * (η + η * ∑ j, b.halfExtents j) := by ring
  rw [e2] at a2
  norm_num at *
  linarith

omit hfl in
/-- C121: the calls have a result, whatever the arguments. -/
theorem C121_result (fl : ℝ → ℝ) (b : Box ℝ) (args : List Motion) : ∃ b', b.transforms fl args b' := by
  induction args generalizing b with
  | nil => exact ⟨b, rfl⟩
  | cons m args ih =>
    obtain ⟨R', hR'⟩ := matMulFloat.exists fl m.rotation b.rotation
    choose v hv using fun i => FlDot.exists (fl := fl) (List.ofFn fun j => (m.rotation i j, b.center j))
    let x : Box ℝ := ⟨b.halfExtents, R', fun i => fl (v i + m.translation i)⟩
    obtain ⟨b', hb'⟩ := ih x
    exact ⟨b', x, ⟨rfl, hR', v, hv, fun _ => rfl⟩, hb'⟩

end

/-! ### The hypotheses can be met -/

/-- A box at distance 1 from the origin, turned about the origin by a right angle any number of times, with a matrix that is not
exactly orthogonal. -/
example (n : ℕ) : ∃ (b : Box ℝ) (args l : List Motion) (O : Matrix (Fin 3) (Fin 3) ℝ), List.Forall₂ NearMotion args l ∧
    args.length = n ∧ NearRotation b.rotation O ∧ StaysWithin 1 l b.center ∧ (∀ i, 0 < b.halfExtents i) ∧
    ∀ m ∈ args, ¬ Orthogonal m.rotation := by
  let Q : Matrix (Fin 3) (Fin 3) ℝ := !![0, -1, 0; 1, 0, 0; 0, 0, 1]
  let R : Matrix (Fin 3) (Fin 3) ℝ := !![(2 : ℝ) ^ (-53 : ℤ), -1, 0; 1, 0, 0; 0, 0, 1]
  have hQ : Orthogonal Q := by
    unfold Orthogonal
    ext i j
    rw [Matrix.mul_apply, Fin.sum_univ_three]
    fin_cases i <;> fin_cases j <;> simp [Q]
  have hR : NearRotation R Q := by
    refine ⟨hQ, fun i j => ?_⟩
    fin_cases i <;> fin_cases j <;> simp [R, Q] <;> norm_num
  have hRn : ¬ Orthogonal R := by
    intro h
    have := congrFun (congrFun h 0) 0
    rw [Matrix.mul_apply, Fin.sum_univ_three] at this
    simp [R] at this
  refine ⟨⟨fun _ => 1, 1, ![1, 0, 0]⟩, List.replicate n ⟨R, 0⟩, List.replicate n ⟨Q, 0⟩, 1, ?_, by simp,
    ⟨Orthogonal.one, fun i j => by simp⟩, ?_, fun i => one_pos, ?_⟩
  · induction n with
    | zero => exact .nil
    | succ n ih => exact .cons ⟨hR, rfl⟩ ih
  · have hmv : ∀ (k : ℕ) (p : Fin 3 → ℝ), vlen (movedBy (List.replicate k ⟨Q, 0⟩) p) = vlen p := by
      intro k
      induction k with
      | zero => exact fun p => rfl
      | succ k ih =>
        intro p
        show vlen (movedBy (List.replicate k ⟨Q, 0⟩) (rigid Q 0 p)) = _
        rw [ih]
        simp only [rigid, add_zero]
        exact vlen_orthogonal hQ p
    intro k i
    rw [List.take_replicate]
    refine (abs_le_vlen _ i).trans ?_
    rw [hmv]
    refine le_of_sq_le_sq ?_ zero_le_one
    rw [vlen_sq]
    simp [dotProduct, Fin.sum_univ_three]
  · intro m hm
    rw [List.eq_of_mem_replicate hm]
    exact hRn

end Rigeo
